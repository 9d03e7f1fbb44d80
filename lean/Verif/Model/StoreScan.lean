import Verif.Model.Store

/-!
# Model of a scan that overlaps other requests

`/repo/src/brokers/store/manager.rs:20-51` `scan`.  `DashMap` 6.1 keeps its entries in shards, each with a lock of its own; a key is
always in the same shard (`home`).  `len` locks one shard after the other, and so does the iterator: it reads a shard under its lock,
and between two shards any other request may come.
-/

namespace Verif.Store

/-- The state of a scan in progress. -/
structure Scan where
  m : Map
  /-- Shards `len` has been through (`manager.rs:21`), and the sum so far. -/
  counted : Nat
  total : Nat
  /-- `manager.rs:22`. -/
  now : Option Nat
  /-- Shards the iterator has been through (`manager.rs:24`), and the entries it has found there. -/
  visited : Nat
  seen : Map

/-- What can happen meanwhile. -/
inductive ScanEv where
  /-- Another request, or the cleanup reaches a key. -/
  | op (o : Op)
  /-- `len` goes on to the next shard. -/
  | count
  /-- `manager.rs:22`: the clock is read. -/
  | clock (now : Nat)
  /-- The iterator goes on to the next shard and reads its entries in some order. -/
  | visit (order : Map → Map)

/-- The entries of a shard. -/
def shard (home : Str → Nat) (i : Nat) (m : Map) : Map := m.filter (fun e => home e.1 == i)

/-- `manager.rs:20-24`, one step; `n` = number of shards. -/
def Scan.step (dflt n : Nat) (home : Str → Nat) (s : Scan) : ScanEv → Scan
  | .op o => { s with m := (Store.step dflt s.m o).1 }
  | .count => if s.counted < n then { s with counted := s.counted + 1, total := s.total + (shard home s.counted s.m).length } else s
  | .clock now => if s.counted = n ∧ s.now = none then { s with now := some now } else s
  | .visit order =>
    if s.now.isSome ∧ s.visited < n then { s with visited := s.visited + 1, seen := s.seen ++ order (shard home s.visited s.m) } else s

def Scan.run (dflt n : Nat) (home : Str → Nat) (s : Scan) : List ScanEv → Scan
  | [] => s
  | e :: es => Scan.run dflt n home (s.step dflt n home e) es

/-- A scan begins. -/
def Scan.start (m : Map) : Scan := { m, counted := 0, total := 0, now := none, visited := 0, seen := [] }

/-- `manager.rs:25-31`: the entries that match. -/
def Scan.matching (s : Scan) (filter : Option Str) : Map :=
  s.seen.filter (fun e => match filter with | some f => contains e.1 f | none => true)

/-- The scan is over: there are no more shards, or `take(limit)` does not ask for more. -/
def Scan.done (n limit offset : Nat) (filter : Option Str) (s : Scan) : Prop :=
  s.now.isSome ∧ (s.visited = n ∨ limit = 0 ∨ offset + limit ≤ (s.matching filter).length)

/-- `manager.rs:24-50`: the answer. -/
def Scan.result (s : Scan) (limit offset : Nat) (filter : Option Str) : Nat × List KeyEntry :=
  (s.total, (((s.matching filter).drop offset).take limit).filterMap (liveEntry (s.now.getD 0)))

end Verif.Store
