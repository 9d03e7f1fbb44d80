import Verif.Model.SdkHandles

/-!
# Consumers of a queue: vocabulary

In terms of what can be seen: `subscribe` is refused, goes on, fails or resolves, and loops end.
-/

namespace Verif.Sdk.Handles

open Verif

/-- Something with `P` was seen, and nothing with `Q` since. -/
def Since {α : Type} (P Q : α → Prop) (tr : List α) : Prop := ∃ u x v, tr = u ++ x :: v ∧ P x ∧ ∀ y ∈ v, ¬ Q y

/-- The call of `subscribe` waits to learn whether the queue exists. -/
def Asking (n : Str) (i : Nat) : List Seen → Prop := Since (· = .asked n i) (fun y => y = .began n i ∨ y = .absent n i)

/-- The call of `subscribe` was resolved and its loop has not ended. -/
def Running (n : Str) (i : Nat) : List Seen → Prop := Since (· = .began n i) (· = .did n i .finished)

/-- No `subscribe` goes on while another one of the same queue waits. -/
def OneByOne (tr : List Seen) : Prop := ∀ u n j v, tr = u ++ .asked n j :: v → ∀ i, ¬ Asking n i u

/-- The queue an event or an observation is about. -/
def Ev.queue : Ev → Str
  | .subscribe n _ | .answered n _ _ | .loop n _ _ => n

def Seen.queue : Seen → Str
  | .refused n _ | .asked n _ | .absent n _ | .began n _ | .did n _ _ => n

end Verif.Sdk.Handles
