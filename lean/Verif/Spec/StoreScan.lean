import Verif.Model.StoreScan
import Verif.Spec.Store

/-!
# Vocabulary for scans that overlap other requests
-/

namespace Verif.Store

/-- The other requests (and steps of the cleanup) among the events. -/
def opsOf : List ScanEv → List Op
  | [] => []
  | .op o :: es => o :: opsOf es
  | _ :: es => opsOf es

/-- The number of SETs. -/
def sets : List Op → Nat
  | [] => 0
  | .set .. :: t => sets t + 1
  | _ :: t => sets t

/-- The iterator lists each entry of a shard once, in any order. -/
def Faithful (es : List ScanEv) : Prop := ∀ order, .visit order ∈ es → ∀ m, (order m).Perm m

/-- The map at some moment of the scan, `es` being what has happened so far. -/
def during (dflt : Nat) (before : List Op) (es : List ScanEv) : Map := (Store.run dflt [] (before ++ opsOf es)).1

end Verif.Store
