import Verif.Model.Store

/-!
# Vocabulary for properties of the store: what the last write says
-/

namespace Verif.Store

/-- A second, in clock ticks. -/
def second : Nat := 1000000000

/-- The time at which a value written at `now` expires; a missing or zero TTL stands for the default. -/
def expiry (dflt : Nat) (ttl : Option Nat) (now : Nat) : Nat :=
  now + (if ttl = none ∨ ttl = some 0 then dflt else ttl.getD 0) * second

/-- The expiry time can be represented (fewer than 2^63 seconds). -/
def representable (t : Nat) : Bool := decide (t < 2 ^ 63 * second)

/-- The value and expiry time of the last write of `key` in a history, newest event first; `none` if the key was
never written or deleted since.  A SET whose expiry cannot be represented gets no answer and writes nothing. -/
def lastWriteRev (dflt : Nat) (key : Str) : List Op → Option (Bytes × Nat)
  | [] => none
  | .set k v ttl now :: t =>
    if k = key ∧ representable (expiry dflt ttl now) then some (v, expiry dflt ttl now) else lastWriteRev dflt key t
  | .del k :: t => if k = key then none else lastWriteRev dflt key t
  | _ :: t => lastWriteRev dflt key t

/-- The last write of `key` in a history. -/
def lastWrite (dflt : Nat) (key : Str) (ops : List Op) : Option (Bytes × Nat) := lastWriteRev dflt key ops.reverse

/-- The cleanup does not look into the future: a key is swept with a clock reading taken before now. -/
def SweptBefore (ops : List Op) (now : Nat) : Prop := ∀ k t, .sweep k t ∈ ops → t ≤ now

/-- The key an event is about. -/
def Op.key : Op → Str
  | .set k .. => k
  | .get k _ => k
  | .del k => k
  | .sweep k _ => k

end Verif.Store
