import Verif.Model.QueueLife
import Verif.Spec.QueueManager

/-!
# What is said about overlapping requests that create, delete and use one queue

The queue of `loneStep` (`Verif.Spec.QueueManager`), to which requests happen one at a time, is the reference.
-/

namespace Verif.Queue

/-- The requests of a history, in the order in which they take effect, and the restarts: a delete takes effect when it begins, a
request that found the queue before it was deleted has no effect, steps of the storage task and the later stages of a delete are
not requests. -/
def requests : List LEvent → List MEvent
  | [] => []
  | .create vt mr now :: t => .create [] vt mr now :: requests t
  | .delete _ :: t => .delete [] :: requests t
  | .exist :: t => .exist [] :: requests t
  | .call o :: t => .op [] o :: requests t
  | .restart now :: t => .restart now :: requests t
  | _ :: t => requests t

/-- Not a step of the storage task. -/
def MEvent.isRequest : MEvent → Bool
  | .commit .. => false
  | _ => true

/-- The queue as requests find it. -/
def Life.queue (s : Life) : Option QInner :=
  match s.live with
  | none => none
  | some k => (mget s.objs k).map Shared.q

/-- No create begins, and the process does not end, while a delete is unanswered. -/
def Apart (dflt : Config) (s : Life) : List LEvent → Prop
  | [] => True
  | e :: t =>
    (match e with
      | .create .. => s.deletes = []
      | .restart _ => s.deletes = []
      | _ => True) ∧
    Apart dflt (s.step dflt e).1 t

instance Apart.dec (dflt : Config) : ∀ (es : List LEvent) (s : Life), Decidable (Apart dflt s es)
  | [], _ => isTrue trivial
  | e :: t, s =>
    have := Apart.dec dflt t (s.step dflt e).1
    match e with
    | .create .. => inferInstanceAs (Decidable (s.deletes = [] ∧ _))
    | .restart _ => inferInstanceAs (Decidable (s.deletes = [] ∧ _))
    | .delete _ | .deleteOn _ | .exist | .call _ | .late _ _ | .opens _ | .commits _ _ => inferInstanceAs (Decidable (True ∧ _))

/-- The answers to `create`, `exist` and the requests that look the queue up. -/
def told : List LEvent → List (Option MAns) → List MAns
  | .create .. :: t, some a :: as => a :: told t as
  | .exist :: t, some a :: as => a :: told t as
  | .call _ :: t, some a :: as => a :: told t as
  | _ :: t, _ :: as => told t as
  | _, _ => []

/-- The same for the reference. -/
def toldLone : List MEvent → List MAns → List MAns
  | .create .. :: t, a :: as => a :: toldLone t as
  | .exist _ :: t, a :: as => a :: toldLone t as
  | .op .. :: t, a :: as => a :: toldLone t as
  | _ :: t, _ :: as => toldLone t as
  | _, _ => []

end Verif.Queue
