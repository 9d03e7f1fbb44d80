import Verif.Model.QueueStore
import Verif.Spec.Queue

/-!
# What a client can observe of the queue model, and which histories are considered
-/

namespace Verif.Queue

open Spec.Queue (Item Dead Q Core Req Ans)

/-- What a message is for the specification. -/
def Msg.item (m : Msg) : Item := ⟨m.id, m.payload, m.priority, m.attempts, m.createdAt⟩

def DlqMsg.dead (d : DlqMsg) : Dead := ⟨⟨d.id, d.payload, d.priority, d.attempts, d.createdAt⟩, d.failedAt, d.reason⟩

/-- The waiting messages, as the listing call shows them. -/
def waiting (q : QInner) : List Msg := (q.state.getMessages false 0 (q.state.listing false (fun _ => true)).length (fun _ => true)).2
/-- The messages in flight, as the listing call shows them. -/
def inFlight (q : QInner) : List Msg := (q.state.getMessages true 0 (q.state.listing true (fun _ => true)).length (fun _ => true)).2
/-- The dead letters, as a peek that asks for everything shows them (newest first). -/
def deadLetters (q : QInner) : List DlqMsg := (dlqPeek q.dlq 0 q.dlq.length).2

def Msg.core (m : Msg) : Core := (m.id, m.payload, m.priority, m.createdAt)
def DlqMsg.core (m : DlqMsg) : Core := (m.id, m.payload, m.priority, m.createdAt)

/-- The time at which a message in flight becomes available again. -/
def Msg.due (m : Msg) : Nat := match m.state with | .inFlight ts => ts | .ready => 0

/-- The request as the specification sees it. -/
def Op.req : Op → Req
  | .push id payload priority now => .push id payload priority now
  | .pop now => .pop now
  | .consume max now => .consume max now
  | .ack id => .ack id
  | .nack id reason now => .nack id reason now
  | .tick now now' => .tick now now'
  | .peekDlq limit offset => .peekDlq limit offset
  | .moveToQueue id => .moveToQueue id
  | .deleteDlq id => .deleteDlq id
  | .purgeDlq => .purgeDlq
  | .counters => .counters

/-- The answer as the specification sees it. -/
def Out.ans : Out → Option Ans
  | .done => some .done
  | .msgs l => some (.msgs (l.map Msg.item))
  | .bool b => some (.bool b)
  | .page n l => some (.page n (l.map DlqMsg.dead))
  | .count n => some (.count n)
  | .stats a b c => some (.stats a b c)
  | .panicked => none

/-- The batch size does not exceed what can be allocated. -/
def Op.ok : Op → Prop
  | .consume max _ => max * msgSize ≤ isizeMax
  | _ => True

instance : DecidablePred Op.ok := fun op => by cases op <;> unfold Op.ok <;> infer_instance

/-- The id of a push, if the request is one. -/
def Op.pushId : Op → List Id
  | .push id _ _ _ => [id]
  | _ => []

/-- The ids given to pushed messages in a history of events. -/
def eventIds : List Event → List Id
  | [] => []
  | .op o :: t => o.pushId ++ eventIds t
  | _ :: t => eventIds t

def Event.ok : Event → Prop
  | .op o => o.ok
  | _ => True

instance : DecidablePred Event.ok := fun e => by cases e <;> unfold Event.ok <;> infer_instance

/-- Allowed histories: batch sizes that can be allocated, and no id is given out twice. -/
def ValidHist (es : List Event) : Prop :=
  (∀ e ∈ es, e.ok) ∧ (eventIds es).Nodup

/-- Ids of the messages an answer hands out. -/
def Out.delivered : Out → List Id
  | .msgs l => l.map (·.id)
  | _ => []

/-- Everything in the queue, wherever it is. -/
def places (q : QInner) : List Core :=
  (waiting q).map Msg.core ++ (inFlight q).map Msg.core ++ (deadLetters q).map DlqMsg.core

/-- What a request removes for good: an ACK the message it names, a delete the dead letter it names, a
purge all dead letters. -/
def removedBy (q : QInner) : Op → List Core
  | .ack id => ((waiting q ++ inFlight q).filter (fun m => m.id = id)).map Msg.core
  | .deleteDlq id => ((deadLetters q).filter (fun d => d.id = id)).map DlqMsg.core
  | .purgeDlq => (deadLetters q).map DlqMsg.core
  | _ => []

/-- What a history removes for good. -/
def removed (q : QInner) : List Op → List Core
  | [] => []
  | op :: t => removedBy q op ++ removed (step q op).1 t

/-- What a history pushes. -/
def pushed : List Op → List Core
  | [] => []
  | .push id payload priority now :: t => (id, payload, priority, now) :: pushed t
  | _ :: t => pushed t

/-- The state can be reached by some history of requests, commits and restarts in which the ids `used`
were given out. -/
def Reachable (cfg : Config) (used : List Id) (q : QInner) : Prop :=
  ∃ es, ValidHist es ∧ eventIds es = used ∧ ((Sys.new cfg).run es).1.q = q

/-- Requests that can follow: batch sizes that can be allocated, new ids. -/
def Fresh (used : List Id) (ops : List Op) : Prop :=
  (∀ op ∈ ops, op.ok) ∧ (pushIds ops).Nodup ∧ ∀ id ∈ pushIds ops, id ∉ used

instance (es : List Event) : Decidable (ValidHist es) := by
  unfold ValidHist; infer_instance

instance (used : List Id) (ops : List Op) : Decidable (Fresh used ops) := by
  unfold Fresh; infer_instance

/-- Deliveries of `id` in a list of answers. -/
def deliveries (id : Id) (outs : List Out) : Nat := (outs.flatMap Out.delivered).count id

/-! ### Restarts -/

/-- Where a message is: waiting, handed out until `due`, dead-lettered, or not in the queue. -/
inductive Place where
  | waiting (x : Item)
  | inFlight (due : Nat) (x : Item)
  | dead (d : DlqMsg)
  | gone
  deriving DecidableEq, Repr

/-- Where the listing calls show the message. -/
def place (q : QInner) (id : Id) : Place :=
  match (waiting q).find? (fun m => m.id = id), (inFlight q).find? (fun m => m.id = id),
    (deadLetters q).find? (fun d => d.id = id) with
  | some m, _, _ => .waiting m.item
  | none, some m, _ => .inFlight m.due m.item
  | none, none, some d => .dead d
  | none, none, none => .gone

/-- What a restart at `now` should do: messages handed out whose timeout has passed are waiting again, all
others are where they were. -/
def Place.afterRestart (now : Nat) : Place → Place
  | .inFlight due x => if now < due then .inFlight due x else .waiting x
  | p => p

/-- The time of the last restart (0 if there was none). -/
def lastStart (es : List Event) : Nat :=
  es.foldl (fun t e => match e with | .restart now => now | _ => t) 0

/-- The storage operations an event sends to the writer. -/
def sentBy (s : Sys) : Event → List StorageOp
  | .op o => (step s.q o).2.2
  | _ => []

/-- The storage operations the requests of a history send to the writer. -/
def sent (s : Sys) : List Event → List StorageOp
  | [] => []
  | e :: t => sentBy s e ++ sent (s.step e).1 t

/-- The history contains no restart. -/
def noRestart (es : List Event) : Prop := ∀ e ∈ es, ∀ now, e ≠ .restart now

/-- The storage operation changes what is stored of message `id`. -/
def touches (id : Id) : StorageOp → Bool
  | .insert m => m.id = id
  | .delete i => i = id
  | .updateState i _ _ => i = id
  | .insertDlq m => m.id = id
  | .deleteDlq i => i = id
  | .moveToDlq i m => i = id || m.id = id
  | .moveToMain i m => i = id || m.id = id
  | .purgeDlq => true

/-- Number of restarts. -/
def restarts (es : List Event) : Nat := (es.filter (fun e => match e with | .restart _ => true | _ => false)).length

/-- Every restart happens when all storage operations have been committed. -/
def CleanRestarts (s : Sys) : List Event → Prop
  | [] => True
  | e :: t => ((∃ now, e = .restart now) → s.pending = []) ∧ CleanRestarts (s.step e).1 t

/-- Deliveries of `id` in a history with commits and restarts. -/
def delivered (id : Id) (outs : List (Option Out)) : Nat := deliveries id (outs.filterMap (fun o => o))

end Verif.Queue
