import Verif.Model.Wire

/-!
# What the frames on the wire mean
-/

namespace Verif.Wire

/-- The frame that stands for an outbound message: type 2 with status 0 (ok), 1 (error: length and text), 2 (null) or
3 (data); type 3 for a push. -/
def Outbound.frame : Outbound → Frame
  | .response id .ok => ⟨2, 0, id, []⟩
  | .response id (.error m) => ⟨2, 1, id, be32 m.length ++ m⟩
  | .response id .null => ⟨2, 2, id, []⟩
  | .response id (.data d) => ⟨2, 3, id, d⟩
  | .push id p => ⟨3, 0, id, p⟩

/-- The id and the payload fit their 32-bit fields. -/
def Outbound.Fits (o : Outbound) : Prop := o.frame.id < 2 ^ 32 ∧ o.frame.payload.length < 2 ^ 32

instance (o : Outbound) : Decidable o.Fits := inferInstanceAs (Decidable (_ ∧ _))

end Verif.Wire
