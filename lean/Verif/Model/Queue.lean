import Verif.Base.Basic
import Verif.Base.BTree

/-!
# Model of the queue broker: in-memory state

`/repo/src/brokers/queue/domain/queue.rs`, `/repo/src/brokers/queue/domain/dlq.rs` and the critical
sections of `/repo/src/brokers/queue/manager.rs`.

Conventions.  A UUID is a natural number (only equality matters; fresh ones are inputs).  Clock
readings (`current_time_ms()`) are inputs.  `u8`/`u32`/`u64` values are natural numbers: additions
are assumed not to overflow (`now + visibility_timeout_ms` and `attempts += 1` wrap in a release
build after 2^64 ms resp. 2^32 deliveries).
-/

namespace Verif.Queue

/-- A `Uuid`. -/
abbrev Id := Nat

/-- `queue.rs:22-26` `enum MessageState`. -/
inductive MsgState where
  | ready
  | inFlight (ts : Nat)
  deriving DecidableEq, Repr

/-- `queue.rs:28-38` `struct Message`. -/
structure Msg where
  id : Id
  payload : Bytes
  priority : Nat
  attempts : Nat
  createdAt : Nat
  visibleAt : Nat
  failure : Option Str
  state : MsgState
  deriving DecidableEq, Repr

/-- `queue.rs:41-54` `Message::new`; the random id and the clock are inputs. -/
def Msg.new (id : Id) (payload : Bytes) (priority now : Nat) : Msg :=
  { id, payload, priority, attempts := 0, createdAt := now, visibleAt := 0, failure := none,
    state := .ready }

/-- `queue.rs:70-74` `struct QueueConfig`. -/
structure Config where
  visibilityTimeout : Nat
  maxRetries : Nat
  deriving DecidableEq, Repr

/-- `queue.rs:76-83` `QueueConfig::from_options`. -/
def Config.fromOptions (visibilityTimeout maxRetries : Option Nat) (sys : Config) : Config :=
  { visibilityTimeout := visibilityTimeout.getD sys.visibilityTimeout
    maxRetries := maxRetries.getD sys.maxRetries }

/-- `queue.rs:89-96` `struct QueueState`. -/
structure QState where
  registry : List (Id × Msg)
  disp : Index
  ackw : Index
  deriving DecidableEq, Repr

/-- `queue.rs:104-110` `QueueState::new`. -/
def QState.new : QState := { registry := [], disp := [], ackw := [] }

namespace QState

/-- `queue.rs:100-102` `next_inflight_timeout`. -/
def nextTimeout (s : QState) : Option Nat := s.ackw.head?.map (·.1)

/-- `queue.rs:113-128` `push`. -/
def push (s : QState) (m : Msg) : QState :=
  let s := { s with registry := mset s.registry m.id m }
  match m.state with
  | .ready => { s with disp := bentry (fun q => lhsInsert q m.id) s.disp m.priority }
  | .inFlight ts => { s with ackw := bentry (fun q => lhsInsert q m.id) s.ackw ts }

/-- `queue.rs:417-432` `remove_from_index`. -/
def removeFromIndex (s : QState) (st : MsgState) (id : Id) (priority : Nat) : QState :=
  match st with
  | .ready => { s with disp := bremove s.disp priority id }
  | .inFlight ts => { s with ackw := bremove s.ackw ts id }

/-- `queue.rs:434-465` `transition_to`. -/
def transitionTo (s : QState) (id : Id) (new : MsgState) : Bool × QState :=
  match mget s.registry id with
  | none => (false, s)
  | some m =>
    if m.state = new then (true, s)
    else
      let s := s.removeFromIndex m.state id m.priority
      let s := { s with registry := mupd s.registry id (fun m => { m with state := new }) }
      match new with
      | .ready => (true, { s with disp := bentry (fun q => lhsInsert q id) s.disp m.priority })
      | .inFlight ts => (true, { s with ackw := bentry (fun q => lhsInsert q id) s.ackw ts })

/-- `queue.rs:471-478` `delete_message_and_return`. -/
def deleteMessage (s : QState) (id : Id) : Option Msg × QState :=
  match mget s.registry id with
  | none => (none, s)
  | some m =>
    let s := { s with registry := mdel s.registry id }
    (some m, s.removeFromIndex m.state id m.priority)

/-- `queue.rs:136-138`, `467-469` `ack` / `delete_message`. -/
def ack (s : QState) (id : Id) : Bool × QState :=
  let r := s.deleteMessage id
  (r.1.isSome, r.2)

/-- `queue.rs:385-388`: the front of the first non-empty bucket from the highest priority down. -/
def nextId (s : QState) : Option Id := s.disp.reverse.findSome? (fun e => e.2.head?)

/-- `queue.rs:381-414` `pop_single` (and `queue.rs:131-133` `pop`). -/
def popSingle (s : QState) (now vt : Nat) : Option Msg × Bool × QState :=
  match s.nextId with
  | none => (none, false, s)
  | some id =>
    let timeout := now + vt
    let s := (s.transitionTo id (.inFlight timeout)).2
    match mget s.registry id with
    | none => (none, false, s)
    | some m =>
      let m := { m with visibleAt := timeout, attempts := m.attempts + 1 }
      let s := { s with registry := mupd s.registry id (fun _ => m) }
      let isEarliest := match s.nextTimeout with
        | some t => decide (t = timeout)
        | none => false
      (some m, isEarliest, s)

/-- `queue.rs:141-158` `take_batch`.  One clock reading is used for the whole batch (the code reads
the clock once per message).  The allocation `Vec::with_capacity(max)` is treated in the manager. -/
def takeBatch (now vt : Nat) : Nat → QState → List Msg × Bool × QState
  | 0, s => ([], false, s)
  | max + 1, s =>
    match s.popSingle now vt with
    | (none, _, s) => ([], false, s)
    | (some m, earliest, s) =>
      let r := takeBatch now vt max s
      (m :: r.1, earliest || r.2.1, r.2.2)

end QState

/-- `dlq.rs:14-23` `struct DlqMessage`. -/
structure DlqMsg where
  id : Id
  payload : Bytes
  priority : Nat
  attempts : Nat
  createdAt : Nat
  failedAt : Nat
  reason : Str
  deriving DecidableEq, Repr

/-- `dlq.rs:26-36` `DlqMessage::from_message`. -/
def DlqMsg.ofMsg (m : Msg) (reason : Str) (now : Nat) : DlqMsg :=
  { id := m.id, payload := m.payload, priority := m.priority, attempts := m.attempts,
    createdAt := m.createdAt, failedAt := now, reason := reason }

/-- `dlq.rs:38-49` `DlqMessage::to_message` (and `queue.rs:56-67` `Message::from_dlq`). -/
def DlqMsg.toMsg (d : DlqMsg) : Msg :=
  { id := d.id, payload := d.payload, priority := d.priority, attempts := 0,
    createdAt := d.createdAt, visibleAt := 0, failure := none, state := .ready }

/-- `queue.rs:243`: the reason recorded for messages whose visibility timeout elapsed too often. -/
def timeoutReason : Str := [84, 105, 109, 101, 111, 117, 116]

namespace QState

/-- `queue.rs:162-189` `nack`. -/
def nack (s : QState) (id : Id) (reason : Str) (maxRetries now : Nat) :
    (Option Msg × Option DlqMsg) × QState :=
  match mget s.registry id with
  | none => ((none, none), s)
  | some m =>
    let s := { s with registry := mupd s.registry id (fun m => { m with failure := some reason }) }
    if m.attempts ≥ maxRetries then
      match s.deleteMessage id with
      | (some m, s) => ((none, some (DlqMsg.ofMsg m reason now)), s)
      | (none, s) => ((none, none), s)
    else
      match s.transitionTo id .ready with
      | (true, s) =>
        let s := { s with registry := mupd s.registry id (fun m => { m with visibleAt := 0 }) }
        match mget s.registry id with
        | some m => ((some m, none), s)
        | none => ((none, none), s)
      | (false, s) => ((none, none), s)

/-- `queue.rs:201-215`: ids of the in-flight messages whose timeout has passed, in index order. -/
def expiredIds (s : QState) (now : Nat) : List Id :=
  ((s.ackw.takeWhile (fun e => e.1 ≤ now)).flatMap (·.2)).filter (fun id => mhas s.registry id)

/-- `queue.rs:219-226`: one iteration of "transition to ready". -/
def requeueOne (s : QState) (id : Id) : Option Msg × QState :=
  match s.transitionTo id .ready with
  | (true, s) =>
    let s := { s with registry := mupd s.registry id (fun m => { m with visibleAt := 0 }) }
    (mget s.registry id, s)
  | (false, s) => (none, s)

/-- `queue.rs:219-226`: the loop. -/
def requeueAll : List Id → QState → List Msg × QState
  | [], s => ([], s)
  | id :: t, s =>
    let r := s.requeueOne id
    let r' := requeueAll t r.2
    (r.1.toList ++ r'.1, r'.2)

/-- `queue.rs:231-244`: one iteration of "collect DLQ messages and delete from active". -/
def expireOne (s : QState) (id : Id) (now : Nat) : Option DlqMsg × QState :=
  match mget s.registry id with
  | none => (none, s)
  | some m =>
    let s := { s with registry := mdel s.registry id }
    let s := match m.state with
      | .inFlight ts => { s with ackw := bremove s.ackw ts id }
      | .ready => s
    (some (DlqMsg.ofMsg m timeoutReason now), s)

/-- `queue.rs:230-245`: the loop. -/
def expireAll (now : Nat) : List Id → QState → List DlqMsg × QState
  | [], s => ([], s)
  | id :: t, s =>
    let r := s.expireOne id now
    let r' := expireAll now t r.2
    (r.1.toList ++ r'.1, r'.2)

/-- `queue.rs:204-210`: has this message used up its attempts? -/
def exhausted (s : QState) (maxRetries : Nat) (id : Id) : Bool :=
  match mget s.registry id with
  | some m => decide (m.attempts ≥ maxRetries)
  | none => false

/-- `queue.rs:195-248` `process_expired`. -/
def processExpired (s : QState) (maxRetries now : Nat) : (List Msg × List DlqMsg) × QState :=
  let ids := s.expiredIds now
  let toDlq := ids.filter (s.exhausted maxRetries)
  let toReady := ids.filter (fun id => !s.exhausted maxRetries id)
  let r := requeueAll toReady s
  let r' := expireAll now toDlq r.2
  ((r.1, r'.1), r'.2)

/-- `queue.rs:250-263` `get_counters`: (pending, in flight). -/
def counters (s : QState) : Nat × Nat :=
  ((s.disp.map (·.2.length)).sum, (s.ackw.map (·.2.length)).sum)

/-- `queue.rs:313-315` `has_ready_messages`. -/
def hasReady (s : QState) : Bool := !s.disp.isEmpty

/-- `queue.rs:362-364` `len`. -/
def len (s : QState) : Nat := s.registry.length

/-- `queue.rs:320-336` `requeue_inflight` (not called by the manager). -/
def requeueInflight (s : QState) (id : Id) : Bool × QState :=
  match mget s.registry id with
  | some m =>
    match m.state with
    | .inFlight _ =>
      match s.transitionTo id .ready with
      | (true, s) =>
        (true, { s with registry := mupd s.registry id (fun m => { m with visibleAt := 0, attempts := m.attempts - 1 }) })
      | (false, s) => (false, s)
    | .ready => (false, s)
  | none => (false, s)

/-- `queue.rs:339-359` `peek_messages` (not called by the manager). -/
def peekMessages (s : QState) (limit : Nat) : List Msg :=
  ((s.disp.reverse.flatMap (·.2)).filterMap (fun id => mget s.registry id)).take limit

/-- `queue.rs:272-288`: the messages listed for a state filter, before paging. `matchesSearch` stands
for the substring search in the payload. -/
def listing (s : QState) (inflight : Bool) (matchesSearch : Msg → Bool) : List Msg :=
  let ids := if inflight then s.ackw.flatMap (·.2) else s.disp.flatMap (·.2)
  (ids.filterMap (fun id => mget s.registry id)).filter matchesSearch

/-- `queue.rs:265-311` `get_messages` (for the two valid state filters). -/
def getMessages (s : QState) (inflight : Bool) (offset limit : Nat) (matchesSearch : Msg → Bool) :
    Nat × List Msg :=
  let all := s.listing inflight matchesSearch
  (all.length, (all.drop offset).take limit)

end QState

/-- `dlq.rs:52-56` `struct DlqState`: a linked hash map in insertion order. -/
abbrev Dlq := List (Id × DlqMsg)

/-- `dlq.rs:65-68` `DlqState::push`. -/
def dlqPush (d : Dlq) (m : DlqMsg) : Dlq := mset d m.id m

/-- `dlq.rs:70-72` `DlqState::remove`. -/
def dlqRemove (d : Dlq) (id : Id) : Option DlqMsg × Dlq := (mget d id, mdel d id)

/-- `dlq.rs:90-101` `DlqState::peek`. -/
def dlqPeek (d : Dlq) (offset limit : Nat) : Nat × List DlqMsg :=
  (d.length, (((d.map (·.2)).reverse).drop offset).take limit)

/-- `manager.rs:33-38` `struct QueueInner` (the name is the key in the manager's map). -/
structure QInner where
  state : QState
  dlq : Dlq
  cfg : Config
  deriving DecidableEq, Repr

/-- A queue without messages. -/
def QInner.empty (cfg : Config) : QInner := { state := .new, dlq := [], cfg }

/-- `persistence.rs:19-48` `enum StorageOp`. -/
inductive StorageOp where
  | insert (m : Msg)
  | delete (id : Id)
  | updateState (id : Id) (visibleAt attempts : Nat)
  | insertDlq (m : DlqMsg)
  | deleteDlq (id : Id)
  | moveToDlq (id : Id) (m : DlqMsg)
  | moveToMain (id : Id) (m : Msg)
  | purgeDlq
  deriving DecidableEq, Repr

/-- Requests on an existing queue, with the inputs the environment supplies (fresh ids, clock). -/
inductive Op where
  | push (id : Id) (payload : Bytes) (priority now : Nat)
  | pop (now : Nat)
  | consume (max now : Nat)
  | ack (id : Id)
  | nack (id : Id) (reason : Str) (now : Nat)
  | tick (now now' : Nat)
  | peekDlq (limit offset : Nat)
  | moveToQueue (id : Id)
  | deleteDlq (id : Id)
  | purgeDlq
  | counters
  deriving DecidableEq, Repr

/-- Answers. -/
inductive Out where
  | done
  | msgs (l : List Msg)
  | bool (b : Bool)
  | page (total : Nat) (l : List DlqMsg)
  | count (n : Nat)
  | stats (pending inflight dead : Nat)
  | panicked
  deriving DecidableEq, Repr

/-- `isize::MAX` on a 64-bit platform: the largest allocation `Vec::with_capacity` accepts. -/
def isizeMax : Nat := 2 ^ 63 - 1

/-- Lower bound on `size_of::<Message>()`: the id alone has 16 bytes. -/
def msgSize : Nat := 16

/-- One request: the critical section under the queue's mutex, the answer, and the storage
operations that the request sends after releasing the mutex.

* push `manager.rs:280-294`; pop `296-314`; ack `316-332`; nack `334-371`
* consume `373-424`: one attempt to take a batch (`381-391` or `404-413`); a long-polling consume is a
  sequence of attempts.  `Vec::with_capacity(max)` (`queue.rs:142`) panics with "capacity overflow"
  when `max * size_of::<Message>()` exceeds `isize::MAX`; allocation failure below that is not modelled.
* tick `164-209`: the timeout task for one queue, with the two clock readings of `166` and `queue.rs:196`
* peek `458-464`; move_to_queue `467-492`; delete_dlq `495-509`; purge_dlq `512-525`
* counters `426-443` (one queue's line of the snapshot) -/
def step (q : QInner) : Op → QInner × Out × List StorageOp
  | .push id payload priority now =>
    let m := Msg.new id payload priority now
    ({ q with state := q.state.push m }, .done, [.insert m])
  | .pop now =>
    match q.state.popSingle now q.cfg.visibilityTimeout with
    | (some m, _, s) => ({ q with state := s }, .msgs [m], [.updateState m.id m.visibleAt m.attempts])
    | (none, _, s) => ({ q with state := s }, .msgs [], [])
  | .consume max now =>
    if max * msgSize > isizeMax then (q, .panicked, [])
    else
      let r := q.state.takeBatch now q.cfg.visibilityTimeout max
      ({ q with state := r.2.2 }, .msgs r.1, r.1.map (fun m => .updateState m.id m.visibleAt m.attempts))
  | .ack id =>
    let r := q.state.ack id
    ({ q with state := r.2 }, .bool r.1, if r.1 then [.delete id] else [])
  | .nack id reason now =>
    match q.state.nack id reason q.cfg.maxRetries now with
    | ((some m, _), s) => ({ q with state := s }, .bool true, [.updateState m.id m.visibleAt m.attempts])
    | ((none, some d), s) => ({ q with state := s, dlq := dlqPush q.dlq d }, .bool true, [.moveToDlq d.id d])
    | ((none, none), s) => ({ q with state := s }, .bool false, [])
  | .tick now now' =>
    match q.state.nextTimeout with
    | none => (q, .done, [])
    | some ts =>
      if ts ≤ now then
        let r := q.state.processExpired q.cfg.maxRetries now'
        ({ q with state := r.2, dlq := r.1.2.foldl dlqPush q.dlq }, .done,
          r.1.1.map (fun m => .updateState m.id 0 m.attempts) ++ r.1.2.map (fun d => .moveToDlq d.id d))
      else (q, .done, [])
  | .peekDlq limit offset =>
    let r := dlqPeek q.dlq offset limit
    (q, .page r.1 r.2, [])
  | .moveToQueue id =>
    match dlqRemove q.dlq id with
    | (some d, dlq) =>
      let m := d.toMsg
      ({ q with state := q.state.push m, dlq := dlq }, .bool true, [.moveToMain id m])
    | (none, _) => (q, .bool false, [])
  | .deleteDlq id =>
    match dlqRemove q.dlq id with
    | (some _, dlq) => ({ q with dlq := dlq }, .bool true, [.deleteDlq id])
    | (none, _) => (q, .bool false, [])
  | .purgeDlq => ({ q with dlq := [] }, .count q.dlq.length, [.purgeDlq])
  | .counters =>
    let c := q.state.counters
    (q, .stats c.1 c.2 q.dlq.length, [])

/-- A history of requests on one queue: final state and the answers. -/
def run (q : QInner) : List Op → QInner × List Out
  | [] => (q, [])
  | op :: t =>
    let r := step q op
    let r' := run r.1 t
    (r'.1, r.2.1 :: r'.2)

/-- Ids given to pushed messages in a history. -/
def pushIds : List Op → List Id
  | [] => []
  | .push id _ _ _ :: t => id :: pushIds t
  | _ :: t => pushIds t

end Verif.Queue
