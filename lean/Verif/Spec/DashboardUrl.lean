import Verif.Model.DashboardUrl

/-!
# Links of the dashboard: vocabulary
-/

namespace Verif.Dashboard

open Verif
open Verif.Rpc (ascii)

/-- A hexadecimal digit. -/
def IsHex (c : UInt8) : Prop := c ∈ ascii "0123456789abcdefABCDEF"

/-- Somewhere `%` and two hexadecimal digits. -/
def HasEscape (n : Str) : Prop := ∃ u a b v, n = u ++ 37 :: a :: b :: v ∧ IsHex a ∧ IsHex b

/-- A name that can stand in an address as it is: not empty; no `/`, `\`, `?`, `#`, tab or newline; not `.` or `..`; no escape. -/
structure Linkable (n : Str) : Prop where
  text : n ≠ []
  marks : ∀ c ∈ n, c ∉ ascii "/\\?#\t\n\r"
  dots : n ≠ ascii "." ∧ n ≠ ascii ".."
  escapes : ¬ HasEscape n

/-- What the page of queues can show of a queue. -/
def Views : List Str := [ascii "pending", ascii "inflight", ascii "dlq"]

end Verif.Dashboard
