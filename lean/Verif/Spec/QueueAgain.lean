import Verif.Spec.QueueRpc

/-!
# What property C123 speaks about
-/

namespace Verif.Rpc

open Verif Verif.Wire Verif.Sdk

variable {I : Type}

/-- The act is a consume on queue `q` that hands out message `i`. -/
def gives (q : Str) (i : Bytes) : Act I → Bool
  | .did _ (.qConsume q' _) _ r => decide (q' = q ∧ i ∈ handedIds r)
  | _ => false

/-- The act acknowledges message `i` of queue `q`. -/
def acks (q : Str) (i : Bytes) (a : Act I) : Prop := ∃ l now r, a = .did l (.qAck i q) now r

/-- The act is a run of the timeout task of queue `q` that reads the clock only at `t` or later, or a crash after which the server starts at `t` or
later. -/
def freesFrom (bg : I → Option Queue.MEvent) (q : Str) (t : Nat) (a : Act I) : Prop :=
  (∃ x s s', a = .ticked x ∧ bg x = some (.op q (.tick s s')) ∧ t ≤ s ∧ t ≤ s') ∨ ∃ s, t ≤ s ∧ crashesAt bg s a

end Verif.Rpc
