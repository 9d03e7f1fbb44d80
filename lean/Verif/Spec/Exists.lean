import Verif.Spec.QueueRpc
import Verif.Spec.StreamCrash

/-!
# Queues and topics that exist: vocabulary

Only what the server has carried out matters, in its order: creates and deletes, and neither crashes nor anything else.
-/

namespace Verif.Rpc

open Verif Verif.Wire Verif.Sdk

variable {I : Type}

/-- What the server has carried out created queue `q` and did not delete it since. -/
def QueueThere (q : Str) (A : List (Act I)) : Prop :=
  ∃ u l o now r v, A = u ++ .did l (.qCreate q o) now r :: v ∧ ∀ a ∈ v, ¬ deletes q a

/-- The same for topic `n`. -/
def TopicThere (n : Str) (A : List (Act I)) : Prop :=
  ∃ u l o now r v, A = u ++ .did l (.sCreate n o) now r :: v ∧ ∀ a ∈ v, ¬ dropsTopic n a

/-- The promise `tag` of client `p` stands for the command: whenever it made a request of that name, it was this one. -/
def Stands (p tag : Nat) (cmd : Cmd) (tr : List (Obs I)) : Prop := ∀ c s, Obs.called p tag c s ∈ tr → c = cmd

/-- Client `p` has not made a request of that name. -/
def Unmade (p tag : Nat) (tr : List (Obs I)) : Prop := ∀ c s, Obs.called p tag c s ∉ tr

/-- At some moment between the call of promise `tag` of client `p` and the end of the trace, what the server had carried out by then was as said. -/
def Meanwhile (p tag : Nat) (P : List (Act I) → Prop) (tr : List (Obs I)) : Prop :=
  ∃ a₁ cmd s a₂ a₃, tr = a₁ ++ .called p tag cmd s :: a₂ ++ a₃ ∧ P (acts (a₁ ++ .called p tag cmd s :: a₂))

end Verif.Rpc
