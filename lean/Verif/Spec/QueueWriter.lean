import Verif.Model.QueueWriter
import Verif.Spec.QueueObs

/-!
# What is said about the queue's storage task
-/

namespace Verif.Queue

/-- Requests and restarts of a history of the storage task, without its own steps. -/
def clientPart : List KEvent → List Event
  | [] => []
  | .op o :: t => .op o :: clientPart t
  | .restart now :: t => .restart now :: clientPart t
  | _ :: t => clientPart t

/-- The transaction works or cannot be started (and is tried again); no statement and no commit fails. -/
def Outcome.clean : Outcome → Bool
  | .noStart => true
  | .commit faults => faults.all (fun f => f = .none)
  | .noCommit => false

/-- No statement and no commit fails in the history. -/
def Clean (es : List KEvent) : Prop :=
  ∀ e ∈ es, match e with
    | .recv r => r.clean = true
    | .tick r => r.clean = true
    | _ => True

instance (es : List KEvent) : Decidable (Clean es) :=
  decidable_of_iff (es.all (fun e => match e with | .recv r => r.clean | .tick r => r.clean | _ => true) = true) (by
    unfold Clean
    rw [List.all_eq_true]
    constructor <;> intro h e he <;> have := h e he <;> cases e <;> simp_all)

/-- No transaction fails in any way. -/
def Outcome.good : Outcome → Bool
  | .commit faults => faults.all (fun f => f = .none)
  | _ => false

/-- Number of times the task receives. -/
def receives : List KEvent → Nat
  | [] => 0
  | .recv _ :: t => receives t + 1
  | _ :: t => receives t

/-- The history contains no restart. -/
def NoRestart (es : List KEvent) : Prop := ∀ e ∈ es, ∀ now, e ≠ .restart now

instance (es : List KEvent) : Decidable (NoRestart es) :=
  decidable_of_iff (es.all (fun e => match e with | .restart _ => false | _ => true) = true) (by
    unfold NoRestart
    rw [List.all_eq_true]
    constructor
    · intro h e he now hh; have := h e he; subst hh; cases this
    · intro h e he
      cases e with
      | restart now => exact absurd rfl (h _ he now)
      | _ => rfl)

/-- What the requests of a history push, with payload, priority and time of creation. -/
def pushedBy : List Event → List Spec.Queue.Core
  | [] => []
  | .op (.push id payload priority now) :: t => (id, payload, priority, now) :: pushedBy t
  | _ :: t => pushedBy t

end Verif.Queue
