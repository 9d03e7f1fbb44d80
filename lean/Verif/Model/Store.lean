import Verif.Base.Basic
import Verif.Base.AMap

/-!
# Model of the key-value store

`/repo/src/brokers/store/domain/map.rs` and `/repo/src/brokers/store/manager.rs`.

The map is an association list; each `DashMap` call on one key is atomic.  Clock readings (`Instant::now()`, in
nanoseconds) are inputs of each call.  `DashMap::iter` visits the entries in an unspecified order: `scan` takes
the entries in the order in which they are visited.  Here the scan is a snapshot; `Model/StoreScan.lean` has it going shard by
shard.  The cleanup is modelled key by key.
-/

namespace Verif.Store

/-- `map.rs:9-12` `struct Entry`. -/
structure Entry where
  value : Bytes
  expiresAt : Option Nat
  deriving DecidableEq, Repr

/-- `map.rs:14-18` `struct MapStore` (the map; the configuration is a parameter of `set`). -/
abbrev Map := List (Str × Entry)

def nanos : Nat := 1000000000

/-- `Instant + Duration::from_secs(secs)`: panics when the seconds do not fit in an `i64`. -/
def instantAdd (now secs : Nat) : Option Nat :=
  let t := now + secs * nanos
  if t / nanos < 2 ^ 63 then some t else none

/-- `map.rs:58-63`. -/
def expiresAt (dflt : Nat) (ttl : Option Nat) (now : Nat) : Option Nat :=
  match ttl with
  | some 0 => instantAdd now dflt
  | none => instantAdd now dflt
  | some secs => instantAdd now secs

/-- `map.rs:57-69` `set`; `none`: the call panics (and has changed nothing). -/
def set (dflt : Nat) (m : Map) (key : Str) (value : Bytes) (ttl : Option Nat) (now : Nat) : Option Map :=
  match expiresAt dflt ttl now with
  | none => none
  | some e => some (mset m key { value, expiresAt := some e })

/-- `map.rs:71-82` `get`. -/
def get (m : Map) (key : Str) (now : Nat) : Option Bytes :=
  match mget m key with
  | none => none
  | some e =>
    match e.expiresAt with
    | some expiry => if now > expiry then none else some e.value
    | none => some e.value

/-- `map.rs:84-86` `del`. -/
def del (m : Map) (key : Str) : Bool × Map := (mhas m key, mdel m key)

/-- `map.rs:40-45`: the closure of `retain`; `true` keeps the entry. -/
def keeps (now : Nat) (e : Entry) : Bool :=
  match e.expiresAt with
  | some expiry => decide (expiry > now)
  | none => true

/-- `map.rs:37-46`: the cleanup reaches one key, with the clock reading taken when it started. -/
def sweep (m : Map) (key : Str) (now : Nat) : Map :=
  match mget m key with
  | some e => if keeps now e then m else mdel m key
  | none => m

/-- `str::contains`. -/
def contains : Str → Str → Bool
  | [], f => f.isPrefixOf []
  | c :: t, f => f.isPrefixOf (c :: t) || contains t f

/-- `snapshot.rs:12-16` `struct KeyEntry`. -/
structure KeyEntry where
  key : Str
  payload : Bytes
  expiresAt : Option Nat
  deriving DecidableEq, Repr

/-- `manager.rs:34-47`: the closure of `filter_map`. -/
def liveEntry (now : Nat) (e : Str × Entry) : Option KeyEntry :=
  match e.2.expiresAt with
  | some expiry => if expiry ≤ now then none else some ⟨e.1, e.2.value, e.2.expiresAt⟩
  | none => some ⟨e.1, e.2.value, e.2.expiresAt⟩

/-- `manager.rs:20-51` `scan`; `visited` are the map's entries in the order of the iterator. -/
def scan (visited : Map) (limit offset : Nat) (filter : Option Str) (now : Nat) : Nat × List KeyEntry :=
  let matching := visited.filter (fun e => match filter with | some f => contains e.1 f | none => true)
  (visited.length, ((matching.drop offset).take limit).filterMap (liveEntry now))

/-- What can happen to the store. -/
inductive Op where
  | set (key : Str) (value : Bytes) (ttl : Option Nat) (now : Nat)
  | get (key : Str) (now : Nat)
  | del (key : Str)
  | sweep (key : Str) (now : Nat)
  deriving DecidableEq, Repr

inductive Out where
  | ok
  | value (v : Option Bytes)
  | panicked
  | none
  deriving DecidableEq, Repr

/-- `tcp.rs:73-86`: the answers (`DEL` answers `Ok` whether or not the key existed). -/
def step (dflt : Nat) (m : Map) : Op → Map × Out
  | .set key value ttl now =>
    match set dflt m key value ttl now with
    | some m => (m, .ok)
    | none => (m, .panicked)
  | .get key now => (m, .value (get m key now))
  | .del key => ((del m key).2, .ok)
  | .sweep key now => (sweep m key now, .none)

def run (dflt : Nat) (m : Map) : List Op → Map × List Out
  | [] => (m, [])
  | op :: t =>
    let r := step dflt m op
    let r' := run dflt r.1 t
    (r'.1, r.2 :: r'.2)

end Verif.Store
