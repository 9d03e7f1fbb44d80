import Verif.Model.Paths

/-!
# Specification: where files may lie
-/

namespace Verif.Paths

open Verif

/-- The name that a request carries. -/
def Named.name : Named → Str
  | .createTopic n => n
  | .deleteTopic n => n
  | .topicExists n => n
  | .topicData n _ => n
  | .createQueue n => n
  | .deleteQueue n => n

def Named.isQueue : Named → Bool
  | .createQueue _ => true
  | .deleteQueue _ => true
  | _ => false

/-- The configured directory for the data of this kind. -/
def Named.base (streams queues : Str) (r : Named) : Str := if r.isQueue then queues else streams

/-- `p` lies in the directory `dir` or is this directory. -/
def Inside (dir p : List Str) : Prop := dir <+: p

/-- Neither lies in the other. -/
def Apart (p q : List Str) : Prop := ¬ Inside p q ∧ ¬ Inside q p

/-- The name does not begin with `/`, and no part of it is `..`. -/
def Tame (n : Str) : Prop := isAbsolute n = false ∧ dotdot ∉ split n

/-- The name is a possible file name: not empty, not `.`, not `..`, and without `/`. -/
def Simple (n : Str) : Prop := n ≠ [] ∧ n ≠ dot ∧ n ≠ dotdot ∧ slash ∉ n

instance (n : Str) : Decidable (Tame n) := by unfold Tame; infer_instance
instance (n : Str) : Decidable (Simple n) := by unfold Simple; infer_instance

end Verif.Paths
