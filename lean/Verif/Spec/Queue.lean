import Verif.Base.Basic

/-!
# Specification of a queue

A queue is three lists: the waiting line, the messages handed out and not yet settled, and the
dead-letter list.  Nothing here refers to the model of the code.
-/

namespace Verif.Spec.Queue

structure Item where
  id : Nat
  payload : Bytes
  priority : Nat
  attempts : Nat
  createdAt : Nat
  deriving DecidableEq, Repr

structure Dead where
  item : Item
  failedAt : Nat
  reason : Str
  deriving DecidableEq, Repr

structure Q where
  /-- The waiting line, next to be served first. -/
  ready : List Item
  /-- Messages handed out, with the time at which they become available again; ordered by that time. -/
  flight : List (Nat × Item)
  /-- Dead letters, oldest first. -/
  dead : List Dead
  deriving DecidableEq, Repr

def Q.empty : Q := ⟨[], [], []⟩

/-- Line up behind everybody with the same or a higher priority. -/
def lineUp (x : Item) (l : List Item) : List Item :=
  l.filter (fun y => x.priority ≤ y.priority) ++ x :: l.filter (fun y => y.priority < x.priority)

/-- File a handed-out message behind those due at the same time or earlier. -/
def file (due : Nat) (x : Item) (l : List (Nat × Item)) : List (Nat × Item) :=
  l.filter (fun e => e.1 ≤ due) ++ (due, x) :: l.filter (fun e => due < e.1)

def dropReady (id : Nat) (l : List Item) : List Item := l.filter (fun x => x.id ≠ id)
def dropFlight (id : Nat) (l : List (Nat × Item)) : List (Nat × Item) := l.filter (fun e => e.2.id ≠ id)

/-- One more delivery. -/
def Item.bump (x : Item) : Item := { x with attempts := x.attempts + 1 }

/-- Hand out the first of the waiting line. -/
def serve (due : Nat) (q : Q) : Option Item × Q :=
  match q.ready with
  | [] => (none, q)
  | x :: rest => (some x.bump, { q with ready := rest, flight := file due x.bump q.flight })

/-- Hand out up to `n` messages. -/
def serveN (due : Nat) : Nat → Q → List Item × Q
  | 0, q => ([], q)
  | n + 1, q =>
    match serve due q with
    | (none, q) => ([], q)
    | (some x, q) =>
      let r := serveN due n q
      (x :: r.1, r.2)

def lookupReady (id : Nat) (q : Q) : Option Item := q.ready.find? (fun x => x.id = id)
def lookupFlight (id : Nat) (q : Q) : Option Item := (q.flight.find? (fun e => e.2.id = id)).map (·.2)
def lookupDead (id : Nat) (q : Q) : Option Dead := q.dead.find? (fun d => d.item.id = id)

/-- Settle a message: it leaves the queue. -/
def settle (id : Nat) (q : Q) : Q :=
  { q with ready := dropReady id q.ready, flight := dropFlight id q.flight }

/-- A consumer reports failure: a message that has used up its attempts is buried, a handed-out one
lines up again at the end of its priority, a waiting one keeps its place. -/
def fail (maxRetries : Nat) (id : Nat) (reason : Str) (now : Nat) (q : Q) : Bool × Q :=
  match lookupFlight id q with
  | some x =>
    if maxRetries ≤ x.attempts then
      (true, { settle id q with dead := q.dead ++ [⟨x, now, reason⟩] })
    else
      (true, { settle id q with ready := lineUp x q.ready })
  | none =>
    match lookupReady id q with
    | some x =>
      if maxRetries ≤ x.attempts then
        (true, { settle id q with dead := q.dead ++ [⟨x, now, reason⟩] })
      else (true, q)
    | none => (false, q)

/-- The visibility timeout of everything due at `now` has elapsed: used-up messages are buried, the
others line up again, in the order in which they were due. -/
def expire (maxRetries : Nat) (reason : Str) (now : Nat) (q : Q) : Q :=
  let due := (q.flight.filter (fun e => e.1 ≤ now)).map (·.2)
  { ready := (due.filter (fun x => x.attempts < maxRetries)).foldl (fun l x => lineUp x l) q.ready
    flight := q.flight.filter (fun e => now < e.1)
    dead := q.dead ++ (due.filter (fun x => maxRetries ≤ x.attempts)).map (fun x => ⟨x, now, reason⟩) }

/-- Put a dead letter back in line with a fresh attempt count. -/
def replay (id : Nat) (q : Q) : Bool × Q :=
  match lookupDead id q with
  | some d =>
    (true, { q with ready := lineUp { d.item with attempts := 0 } q.ready
                    dead := q.dead.filter (fun d => d.item.id ≠ id) })
  | none => (false, q)

/-- Throw away a dead letter. -/
def discard (id : Nat) (q : Q) : Bool × Q :=
  match lookupDead id q with
  | some _ => (true, { q with dead := q.dead.filter (fun d => d.item.id ≠ id) })
  | none => (false, q)

/-- Requests, with the inputs the environment supplies: fresh ids and clock readings. -/
inductive Req where
  | push (id : Nat) (payload : Bytes) (priority now : Nat)
  | pop (now : Nat)
  | consume (max now : Nat)
  | ack (id : Nat)
  | nack (id : Nat) (reason : Str) (now : Nat)
  /-- The periodic timeout check; it looks at the clock twice. -/
  | tick (now now' : Nat)
  | peekDlq (limit offset : Nat)
  | moveToQueue (id : Nat)
  | deleteDlq (id : Nat)
  | purgeDlq
  | counters
  deriving DecidableEq, Repr

/-- Answers. -/
inductive Ans where
  | done
  | msgs (l : List Item)
  | bool (b : Bool)
  | page (total : Nat) (l : List Dead)
  | count (n : Nat)
  | stats (pending inflight dead : Nat)
  deriving DecidableEq, Repr

/-- The queue as a state machine, for a visibility timeout and a retry limit. -/
def step (vt maxRetries : Nat) (timeoutReason : Str) (q : Q) : Req → Q × Ans
  | .push id payload priority now =>
    ({ q with ready := lineUp ⟨id, payload, priority, 0, now⟩ q.ready }, .done)
  | .pop now => let r := serve (now + vt) q; (r.2, .msgs r.1.toList)
  | .consume max now => let r := serveN (now + vt) max q; (r.2, .msgs r.1)
  | .ack id =>
    (settle id q, .bool ((lookupReady id q).isSome || (lookupFlight id q).isSome))
  | .nack id reason now => let r := fail maxRetries id reason now q; (r.2, .bool r.1)
  | .tick now now' =>
    (if q.flight.any (fun e => e.1 ≤ now) then expire maxRetries timeoutReason now' q else q, .done)
  | .peekDlq limit offset => (q, .page q.dead.length ((q.dead.reverse.drop offset).take limit))
  | .moveToQueue id => let r := replay id q; (r.2, .bool r.1)
  | .deleteDlq id => let r := discard id q; (r.2, .bool r.1)
  | .purgeDlq => ({ q with dead := [] }, .count q.dead.length)
  | .counters => (q, .stats q.ready.length q.flight.length q.dead.length)

/-- A history: final state and answers. -/
def run (vt maxRetries : Nat) (timeoutReason : Str) (q : Q) : List Req → Q × List Ans
  | [] => (q, [])
  | op :: t =>
    let r := step vt maxRetries timeoutReason q op
    let r' := run vt maxRetries timeoutReason r.1 t
    (r'.1, r.2 :: r'.2)

/-! ### What histories are measured by -/

/-- What was pushed: id, payload, priority, time of the push. -/
abbrev Core := Nat × Bytes × Nat × Nat

def Item.core (x : Item) : Core := (x.id, x.payload, x.priority, x.createdAt)

/-- Everything in the queue, wherever it is. -/
def Q.cores (q : Q) : List Core :=
  q.ready.map Item.core ++ (q.flight.map (fun e => e.2.core) ++ q.dead.map (fun d => d.item.core))

/-- What a request removes for good. -/
def removedBy (q : Q) : Req → List Core
  | .ack id =>
    (q.ready.filter (fun x => x.id = id)).map Item.core ++
      (q.flight.filter (fun e => e.2.id = id)).map (fun e => e.2.core)
  | .deleteDlq id => (q.dead.filter (fun d => d.item.id = id)).map (fun d => d.item.core)
  | .purgeDlq => q.dead.map (fun d => d.item.core)
  | _ => []

/-- What a request adds. -/
def addedBy : Req → List Core
  | .push id payload priority now => [(id, payload, priority, now)]
  | _ => []

/-- Ids handed out by an answer. -/
def Ans.delivered : Ans → List Nat
  | .msgs l => l.map (·.id)
  | _ => []

/-! ### The same queue, with the waiting messages kept in the order of their arrival

`serve` looks for the first message that no other message outranks. -/

/-- The first of the messages with the highest priority. -/
def pick (l : List Item) : Option Item := l.find? (fun x => l.all (fun y => y.priority ≤ x.priority))

def serveArr (due : Nat) (q : Q) : Option Item × Q :=
  match pick q.ready with
  | none => (none, q)
  | some x =>
    (some x.bump, { q with ready := dropReady x.id q.ready, flight := file due x.bump q.flight })

def serveArrN (due : Nat) : Nat → Q → List Item × Q
  | 0, q => ([], q)
  | n + 1, q =>
    match serveArr due q with
    | (none, q) => ([], q)
    | (some x, q) =>
      let r := serveArrN due n q
      (x :: r.1, r.2)

/-- `step` with `lineUp` replaced by "go to the end" and `serve` by `serveArr`. -/
def stepArr (vt maxRetries : Nat) (timeoutReason : Str) (q : Q) : Req → Q × Ans
  | .push id payload priority now => ({ q with ready := q.ready ++ [⟨id, payload, priority, 0, now⟩] }, .done)
  | .pop now => let r := serveArr (now + vt) q; (r.2, .msgs r.1.toList)
  | .consume max now => let r := serveArrN (now + vt) max q; (r.2, .msgs r.1)
  | .nack id reason now =>
    match lookupFlight id q with
    | some x =>
      if maxRetries ≤ x.attempts then
        ({ settle id q with dead := q.dead ++ [⟨x, now, reason⟩] }, .bool true)
      else ({ settle id q with ready := q.ready ++ [x] }, .bool true)
    | none => let r := fail maxRetries id reason now q; (r.2, .bool r.1)
  | .tick now now' =>
    if q.flight.any (fun e => e.1 ≤ now) then
      let due := (q.flight.filter (fun e => e.1 ≤ now')).map (·.2)
      ({ ready := q.ready ++ due.filter (fun x => x.attempts < maxRetries)
         flight := q.flight.filter (fun e => now' < e.1)
         dead := q.dead ++ (due.filter (fun x => maxRetries ≤ x.attempts)).map (fun x => ⟨x, now', timeoutReason⟩) }, .done)
    else (q, .done)
  | .moveToQueue id =>
    match lookupDead id q with
    | some d =>
      ({ q with ready := q.ready ++ [{ d.item with attempts := 0 }]
                dead := q.dead.filter (fun d => d.item.id ≠ id) }, .bool true)
    | none => (q, .bool false)
  | op => step vt maxRetries timeoutReason q op

/-- A history of the arrival-ordered queue. -/
def runArr (vt maxRetries : Nat) (timeoutReason : Str) (q : Q) : List Req → Q × List Ans
  | [] => (q, [])
  | op :: t =>
    let r := stepArr vt maxRetries timeoutReason q op
    let r' := runArr vt maxRetries timeoutReason r.1 t
    (r'.1, r.2 :: r'.2)

end Verif.Spec.Queue
