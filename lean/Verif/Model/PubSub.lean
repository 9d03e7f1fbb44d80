import Verif.Base.Basic
import Verif.Base.AMap
import Verif.Model.Store

/-!
# Model of the publish/subscribe broker

`/repo/src/brokers/pub-sub/domain/radix_tree.rs`, `retained.rs`, `persistence.rs` and
`/repo/src/brokers/pub-sub/manager.rs`.

Times are inputs: `now` is the monotonic clock (`Instant`, in nanoseconds), `unixNow` the wall clock in whole
seconds.  `HashMap`/`HashSet` iteration orders are not specified by Rust: the order in which retained messages
are sent to a new subscriber is an input of the operation (any permutation), the order in which different
clients are served by one publish is not observable by any of them.
-/

namespace Verif.PubSub

/-- `types.rs:9-10` `ClientId`: the connection's UUID as a string; only equality matters. -/
abbrev Cid := Nat

/-- `retained.rs:7-13` `struct RetainedMessage`. -/
structure Retained where
  data : Bytes
  expiresAt : Option Nat
  expiresUnix : Option Nat
  deriving DecidableEq, Repr

/-- `retained.rs:27-29` `is_expired`. -/
def Retained.expired (r : Retained) (now : Nat) : Bool :=
  match r.expiresAt with
  | some e => decide (e ≤ now)
  | none => false

/-- `retained.rs:16-25` `new` with `ttl_seconds = Some(secs)`; `none`: `Instant + Duration` panics. -/
def Retained.new (data : Bytes) (secs now unixNow : Nat) : Option Retained :=
  (Store.instantAdd now secs).map (fun e => { data, expiresAt := some e, expiresUnix := some (unixNow + secs) })

/-- `retained.rs:31-42` `from_persisted` (an `Instant` overflow of the remaining seconds, possible only for
time-to-live values near `2^63` seconds, is not modelled). -/
def Retained.fromPersisted (data : Bytes) (expiresUnix : Option Nat) (now unixNow : Nat) : Retained :=
  { data
    expiresAt := match expiresUnix with
      | some ts => if ts > unixNow then some (now + (ts - unixNow) * Store.nanos) else none
      | none => none
    expiresUnix }

/-- `radix_tree.rs:10-24` `struct Node`. -/
inductive Node where
  | mk (children : List (Str × Node)) (plus hash : Option Node) (subs : List Cid) (retained : Option Retained)

/-- `radix_tree.rs:27-35` `Node::new`. -/
def Node.empty : Node := .mk [] none none [] none

def Node.children : Node → List (Str × Node) | .mk c _ _ _ _ => c
def Node.plus : Node → Option Node | .mk _ p _ _ _ => p
def Node.hash : Node → Option Node | .mk _ _ h _ _ => h
def Node.subs : Node → List Cid | .mk _ _ _ s _ => s
def Node.retained : Node → Option Retained | .mk _ _ _ _ r => r

/-- The separator `'/'`. -/
def slash : UInt8 := 47

/-- The level `"+"`. -/
def plusS : Str := [43]

/-- The level `"#"`. -/
def hashS : Str := [35]

/-- `radix_tree.rs:37-43` `is_empty`. -/
def Node.isEmpty (n : Node) : Bool :=
  n.subs.isEmpty && n.children.isEmpty && n.plus.isNone && n.hash.isNone && n.retained.isNone

/-- `HashSet::insert`. -/
def setInsert [DecidableEq α] (a : α) (s : List α) : List α := if a ∈ s then s else s ++ [a]

/-- `HashSet::remove`. -/
def setRemove [DecidableEq α] (a : α) (s : List α) : List α := s.filter (fun b => b ≠ a)

/-- `node.subscribers.insert(client)`. -/
def Node.addSub (n : Node) (c : Cid) : Node := .mk n.children n.plus n.hash (setInsert c n.subs) n.retained

/-- `node.subscribers.remove(client)`. -/
def Node.delSub (n : Node) (c : Cid) : Node := .mk n.children n.plus n.hash (setRemove c n.subs) n.retained

/-- `radix_tree.rs:45-64` `insert_subscriber`. -/
def insertSub (c : Cid) : List Str → Node → Node
  | [], n => n.addSub c
  | part :: rest, n =>
    if part = hashS then
      .mk n.children n.plus (some ((n.hash.getD .empty).addSub c)) n.subs n.retained
    else if part = plusS then
      .mk n.children (some (insertSub c rest (n.plus.getD .empty))) n.hash n.subs n.retained
    else
      .mk (mset n.children part (insertSub c rest ((mget n.children part).getD .empty)))
        n.plus n.hash n.subs n.retained

/-- `radix_tree.rs:66-107` `remove_subscriber`: the new node and the returned "is now empty". -/
def removeSub (c : Cid) : List Str → Node → Node × Bool
  | [], n => (n.delSub c, (n.delSub c).isEmpty)
  | head :: tail, n =>
    let n' : Node :=
      if head = hashS then
        match n.hash with
        | some h =>
          .mk n.children n.plus (if (h.delSub c).isEmpty then none else some (h.delSub c)) n.subs n.retained
        | none => n
      else if head = plusS then
        match n.plus with
        | some p =>
          .mk n.children (if (removeSub c tail p).2 then none else some (removeSub c tail p).1)
            n.hash n.subs n.retained
        | none => n
      else
        match mget n.children head with
        | some ch =>
          .mk (if (removeSub c tail ch).2 then mdel n.children head
               else mset n.children head (removeSub c tail ch).1)
            n.plus n.hash n.subs n.retained
        | none => n
    (n', n'.isEmpty)

/-- `radix_tree.rs:109-134` `match_subscribers`. -/
def matchSubs : List Str → Node → List Cid
  | [], n => (match n.hash with | some h => h.subs | none => []) ++ n.subs
  | head :: tail, n =>
    (match n.hash with | some h => h.subs | none => [])
      ++ (match mget n.children head with | some ch => matchSubs tail ch | none => [])
      ++ (match n.plus with | some p => matchSubs tail p | none => [])

/-- `radix_tree.rs:136-142` `set_retained`. -/
def setRetained (r : Option Retained) : List Str → Node → Node
  | [], n => .mk n.children n.plus n.hash n.subs r
  | part :: rest, n =>
    .mk (mset n.children part (setRetained r rest ((mget n.children part).getD .empty)))
      n.plus n.hash n.subs n.retained

/-- `radix_tree.rs:159`, `179`, `191`: the path of a child. -/
def joinPath (path key : Str) : Str := if path.isEmpty then key else path ++ slash :: key

/-- The retained message of one node, if it has not expired, labelled with the path. -/
def liveHere (now : Nat) (path : Str) (r : Option Retained) : List (Str × Retained) :=
  match r with
  | some r => if r.expired now then [] else [(path, r)]
  | none => []

mutual

/-- `radix_tree.rs:172-182` `collect_all_retained_for_subscribe` and `radix_tree.rs:184-194`
`collect_all_retained` (the same traversal; they differ in the fields they copy out of the message). -/
def collectAll (now : Nat) (path : Str) : Node → List (Str × Retained)
  | .mk children _ _ _ r => liveHere now path r ++ collectKids now path children

/-- The loops `for (key, child) in &self.children`. -/
def collectKids (now : Nat) (path : Str) : List (Str × Node) → List (Str × Retained)
  | [] => []
  | (key, child) :: t => collectAll now (joinPath path key) child ++ collectKids now path t

end

/-- `radix_tree.rs:144-170` `collect_retained_for_pattern`. -/
def collectPattern (now : Nat) : List Str → Str → Node → List (Str × Retained)
  | [], path, n => liveHere now path n.retained
  | head :: tail, path, n =>
    if head = plusS then
      n.children.flatMap (fun e => collectPattern now tail (joinPath path e.1) e.2)
    else if head = hashS then
      collectAll now path n
    else
      match mget n.children head with
      | some ch => collectPattern now tail (joinPath path head) ch
      | none => []

mutual

/-- `radix_tree.rs:196-225` `cleanup_expired_retained`: the new node and the returned "something was removed". -/
def cleanup (now : Nat) : Node → Node × Bool
  | .mk children plus hash subs r =>
    let own := match r with | some r => r.expired now | none => false
    let kids := cleanupKids now children
    let p := cleanupOpt now plus
    let h := cleanupOpt now hash
    (.mk kids.1 p.1 h.1 subs (if own then none else r), own || kids.2 || p.2 || h.2)

def cleanupKids (now : Nat) : List (Str × Node) → List (Str × Node) × Bool
  | [] => ([], false)
  | (key, child) :: t =>
    (((key, (cleanup now child).1) :: (cleanupKids now t).1), (cleanup now child).2 || (cleanupKids now t).2)

def cleanupOpt (now : Nat) : Option Node → Option Node × Bool
  | none => (none, false)
  | some n => (some (cleanup now n).1, (cleanup now n).2)

end

/-- `str::split('/')`: always at least one part. -/
def split : Str → List Str
  | [] => [[]]
  | c :: t =>
    if c = slash then [] :: split t
    else (c :: (split t).headD []) :: (split t).tail

/-- `types.rs:19-24` `PubSubMessage`. -/
structure Msg where
  topic : Str
  payload : Bytes
  deriving DecidableEq, Repr

/-- `types.rs:12-15` `ClientInfo`; `alive`: the receiving end of `sender` still exists. -/
structure Info where
  subscriptions : List Str
  alive : Bool
  deriving DecidableEq, Repr

/-- One row of the table `retained` (`persistence.rs:8-22`). -/
abbrev Row := Str × Bytes × Option Nat

/-- `manager.rs:17-22` `PubSubManager`, and the committed rows of its database. -/
structure State where
  tree : Node
  clients : List (Cid × Info)
  dirty : Bool
  db : List Row

/-- `persistence.rs:25-44` `load_all` followed by `manager.rs:31-44`. -/
def loadRow (now unixNow : Nat) (t : Node) (row : Row) : Node :=
  let msg := Retained.fromPersisted row.2.1 row.2.2 now unixNow
  if msg.expired now then t else setRetained (some msg) (split row.1) t

/-- `manager.rs:25-103` `PubSubManager::new` on a database with the given rows. -/
def boot (db : List Row) (now unixNow : Nat) : State :=
  { tree := db.foldl (loadRow now unixNow) .empty, clients := [], dirty := false, db }

/-- What can happen. -/
inductive Op where
  /-- `connect`. -/
  | connect (c : Cid)
  /-- the receiving task of the client ends: from now on `sender.send` fails -/
  | drop (c : Cid)
  /-- `disconnect`. -/
  | disconnect (c : Cid)
  /-- `subscribe`; `order` is the order in which the hash maps deliver the retained messages. -/
  | subscribe (c : Cid) (pattern : Str) (order : List Msg) (now : Nat)
  /-- `unsubscribe`. -/
  | unsubscribe (c : Cid) (pattern : Str)
  /-- `publish`. -/
  | publish (topic : Str) (data : Bytes) (retain : Bool) (ttl : Option Nat) (now unixNow : Nat)
  /-- one round of the background cleanup -/
  | cleanup (now : Nat)
  /-- one round of the background flush; `ok`: SQLite reports no error of its own -/
  | flush (now : Nat) (ok : Bool)
  deriving DecidableEq, Repr

/-- What an operation does visibly: the messages that reach clients, and the count `publish` returns. -/
structure Out where
  sent : List (Cid × Msg) := []
  count : Nat := 0
  panicked : Bool := false
  deriving DecidableEq, Repr

/-- `manager.rs:112-120` `disconnect`. -/
def disconnect (s : State) (c : Cid) : State :=
  match mget s.clients c with
  | some info =>
    { s with
      clients := mdel s.clients c
      tree := info.subscriptions.foldl (fun t sub => (removeSub c (split sub) t).1) s.tree }
  | none => s

/-- `manager.rs:138`: one leading `'/'` is stripped from the label. -/
def stripLabel (p : Str) : Str :=
  match p with
  | c :: t => if c = slash then t else p
  | [] => []

/-- `manager.rs:122-142` `subscribe`. -/
def subscribe (s : State) (c : Cid) (pattern : Str) (order : List Msg) (now : Nat) : State × Out :=
  match mget s.clients c with
  | none => (s, {})
  | some info =>
    let t := insertSub c (split pattern) s.tree
    let msgs := (collectPattern now (split pattern) [] t).map (fun e => Msg.mk (stripLabel e.1) e.2.data)
    let msgs := if order.isPerm msgs then order else msgs
    ({ s with
        clients := mupd s.clients c (fun i => { i with subscriptions := setInsert pattern i.subscriptions })
        tree := t },
     { sent := if info.alive then msgs.map (fun m => (c, m)) else [] })

/-- `manager.rs:144-151` `unsubscribe`. -/
def unsubscribe (s : State) (c : Cid) (pattern : Str) : State :=
  { s with
    clients := mupd s.clients c (fun i => { i with subscriptions := setRemove pattern i.subscriptions })
    tree := (removeSub c (split pattern) s.tree).1 }

/-- `manager.rs:174-175`: keep the first occurrence of each client. -/
def dedup [DecidableEq α] : List α → List α → List α
  | _, [] => []
  | seen, a :: t => if a ∈ seen then dedup seen t else a :: dedup (a :: seen) t

/-- `manager.rs:182-183`: does the message reach the client? -/
def reaches (s : State) (c : Cid) : Bool :=
  match mget s.clients c with
  | some info => info.alive
  | none => false

/-- `manager.rs:168-197`: the part of `publish` after the retained value has been stored. -/
def deliver (s : State) (topic : Str) (data : Bytes) : State × Out :=
  let matched := dedup [] (matchSubs (split topic) s.tree)
  let served := matched.filter (reaches s)
  let zombies := matched.filter (fun c => !reaches s c)
  (zombies.foldl disconnect s,
   { sent := served.map (fun c => (c, ⟨topic, data⟩)), count := served.length })

/-- `manager.rs:157-166`: storing the retained value; `none`: the call panics. -/
def retain (dflt : Nat) (s : State) (topic : Str) (data : Bytes) (ttl : Option Nat) (now unixNow : Nat) :
    Option State :=
  if data.isEmpty then
    some { s with tree := setRetained none (split topic) s.tree, dirty := true }
  else
    match Retained.new data (ttl.getD dflt) now unixNow with
    | some r => some { s with tree := setRetained (some r) (split topic) s.tree, dirty := true }
    | none => none

/-- `manager.rs:153-198` `publish`. -/
def publish (dflt : Nat) (s : State) (topic : Str) (data : Bytes) (keep : Bool) (ttl : Option Nat)
    (now unixNow : Nat) : State × Out :=
  if keep then
    match retain dflt s topic data ttl now unixNow with
    | some s => deliver s topic data
    | none => (s, { panicked := true })
  else deliver s topic data

/-- `manager.rs:62-66`, `persistence.rs:46-59`: the rows a flush writes. -/
def rows (now : Nat) (t : Node) : List Row :=
  (collectAll now [] t).map (fun e => (e.1, e.2.data, e.2.expiresUnix))

/-- `persistence.rs:46-59` `flush`: `path` is the primary key, so inserting the same path twice fails and the
transaction is rolled back. -/
def flushRows (db : List Row) (new : List Row) (ok : Bool) : List Row :=
  if ok && decide (new.map (·.1)).Nodup then new else db

/-- One operation. -/
def step (dflt : Nat) (s : State) : Op → State × Out
  | .connect c => ({ s with clients := mset s.clients c ⟨[], true⟩ }, {})
  | .drop c => ({ s with clients := mupd s.clients c (fun i => { i with alive := false }) }, {})
  | .disconnect c => (disconnect s c, {})
  | .subscribe c pattern order now => subscribe s c pattern order now
  | .unsubscribe c pattern => (unsubscribe s c pattern, {})
  | .publish topic data keep ttl now unixNow => publish dflt s topic data keep ttl now unixNow
  | .cleanup now =>
    -- `manager.rs:81-95`
    let r := cleanup now s.tree
    ({ s with tree := r.1, dirty := s.dirty || r.2 }, {})
  | .flush now ok =>
    -- `manager.rs:52-74`
    if s.dirty then ({ s with dirty := false, db := flushRows s.db (rows now s.tree) ok }, {}) else (s, {})

def run (dflt : Nat) (s : State) : List Op → State × List Out
  | [] => (s, [])
  | op :: t =>
    let r := step dflt s op
    let r' := run dflt r.1 t
    (r'.1, r.2 :: r'.2)

end Verif.PubSub
