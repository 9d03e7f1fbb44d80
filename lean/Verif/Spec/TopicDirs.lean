import Verif.Model.TopicDirs
import Verif.Spec.Paths

/-!
# Specification: which topics there should be
-/

namespace Verif.Dirs

open Verif

/-- Topic `n` was created, and not deleted since. -/
def Alive (n : Str) (es : List Ev) : Prop := ∃ u v, es = u ++ .create n :: v ∧ .delete n ∉ v

/-- The parts of the name between the separators are names: none is empty, `.` or `..`. -/
def Neat (n : Str) : Prop := ∀ p ∈ Paths.split n, p ≠ [] ∧ p ≠ Paths.dot ∧ p ≠ Paths.dotdot

instance (n : Str) : Decidable (Neat n) := by unfold Neat; infer_instance

/-- The name that a request carries. -/
def Ev.name? : Ev → Option Str
  | .create n | .delete n => some n
  | _ => none

/-- A topic was created whose name begins with `n` and `/`. -/
def Nested (n : Str) (es : List Ev) : Prop := ∃ r, .create (n ++ Paths.slash :: r) ∈ es

end Verif.Dirs
