import Verif.Model.QueueE2E
import Verif.Spec.SdkQueue
import Verif.Spec.QueueObs

/-! # What the users of a queue and of its consumers can observe -/

namespace Verif.QueueE2E

open Verif.Queue (Id Msg Config Sys Op)
open Verif.Sdk.QueueLoop (Loop Ev inProgress)

/-- The messages the callback of a client is called with in a step. -/
def callsBy (o : Options) (s : Net) : Event → List Msg
  | .client _ (.delivered _) _ => []
  | .client k e _ => (Sdk.QueueLoop.called (Sdk.QueueLoop.step (o.concurrency k) (s.clients k).loop e).2).filterMap (fun m => s.deliveries[m]?)
  | _ => []

/-- The messages the callbacks of the clients were called with, in order. -/
def calls (o : Options) (s : Net) : List Event → List Msg
  | [] => []
  | e :: es => callsBy o s e ++ calls o (s.step o e) es

/-- The message whose callback returns without an error in a step. -/
def doneBy (s : Net) : Event → List Id
  | .client k (.returned m true _) _ =>
    if m ∈ inProgress (s.clients k).loop then (s.deliveries[m]?).toList.map (·.id) else []
  | _ => []

/-- The messages for which the callback of some client returned without an error. -/
def processed (o : Options) (s : Net) : List Event → List Id
  | [] => []
  | e :: es => doneBy s e ++ processed o (s.step o e) es

/-- The ids given to the messages pushed in a history. -/
def pushIds : List Event → List Id
  | [] => []
  | .op x :: t => x.pushId ++ pushIds t
  | _ :: t => pushIds t

/-- Batches that can be allocated, and no id is given out twice. -/
def Valid (o : Options) (es : List Event) : Prop :=
  (∀ k, o.batchSize k * Queue.msgSize ≤ Queue.isizeMax) ∧ (∀ x, .op x ∈ es → x.ok) ∧ (pushIds es).Nodup

/-- The server is not restarted. -/
def noRestart (es : List Event) : Prop := ∀ now, .restart now ∉ es

/-- Number of restarts of the server. -/
def restarts (es : List Event) : Nat := (es.filter (fun e => match e with | .restart _ => true | _ => false)).length

/-- The times at which the server is started again. -/
def startTimes (es : List Event) : List Nat := es.filterMap (fun e => match e with | .restart now => some now | _ => none)

/-- Somebody other than the clients removes the message: an acknowledgement from outside, or a removal from the
dead-letter list. -/
def RemovedByHand (es : List Event) (id : Id) : Prop :=
  .op (.ack id) ∈ es ∨ .op (.deleteDlq id) ∈ es ∨ .op .purgeDlq ∈ es

instance (es : List Event) (id : Id) : Decidable (RemovedByHand es id) := by unfold RemovedByHand; infer_instance

end Verif.QueueE2E
