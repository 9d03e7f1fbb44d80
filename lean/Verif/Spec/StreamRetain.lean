import Verif.Model.StreamRpc

/-!
# Specification of a topic's retention limits

For C124: what may and what must be removed, in terms of the options of the `create`.
-/

namespace Verif.Rpc

open Verif Verif.Wire Verif.Sdk
open Verif.Stream (Seg totalSize)

/-- `x` is more than a `create` allows: a limit that it leaves out is the server's own, and zero stands for no limit. -/
def Exceeds (server : Nat) (asked : Option Nat) (x : Nat) : Prop :=
  match asked with
  | none => server < x
  | some v => v ≠ 0 ∧ v < x

/-- The age asked for, in milliseconds. -/
def askedAge (o : StreamOpts) : Option Nat := o.retention.bind (·.1)

/-- The size asked for, in bytes. -/
def askedBytes (o : StreamOpts) : Option Nat := o.retention.bind (·.2)

/-- Retention at the time `now` turns the segment files `before` into `after`, as the options ask. -/
structure Respected (sys : SysStream) (o : StreamOpts) (now : Nat) (before after : List Seg) : Prop where
  /-- Files are removed from the old end only, and each for a reason: it is too old, or it and the later ones take too much room. -/
  reason : ∃ gone, before = gone ++ after ∧ ∀ a s b, gone = a ++ s :: b →
    Exceeds sys.age (askedAge o) (now - s.mtime) ∨ Exceeds sys.bytes (askedBytes o) (totalSize (s :: b ++ after))
  /-- The newest file stays. -/
  newest : after.getLast? = before.getLast?
  /-- No other file is too old. -/
  age : ∀ s ∈ after.dropLast, ¬ Exceeds sys.age (askedAge o) (now - s.mtime)
  /-- Unless only the newest file is left, the files do not take too much room. -/
  size : after.length ≤ 1 ∨ ¬ Exceeds sys.bytes (askedBytes o) (totalSize after)

end Verif.Rpc
