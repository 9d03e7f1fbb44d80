import Verif.Model.SdkPubSub
import Verif.Spec.PubSub

namespace Verif.PubSub.Sdk

/-- Has the application registered a callback for this pattern and not removed it since (newest call first)? -/
def heldRev (p : Str) : List Call → Bool
  | [] => false
  | .subscribe t :: l => decide (t = p) || heldRev p l
  | .unsubscribe t :: l => decide (t ≠ p) && heldRev p l

def held (p : Str) (l : List Call) : Bool := heldRev p l.reverse

end Verif.PubSub.Sdk
