import Verif.Model.SdkSubs

/-! # What a user of subscriptions can observe -/

namespace Verif.PubSub.Sdk

/-- No request is on its way and no answer either. -/
def Link.quiet (l : Link) : Prop := l.up = true ∧ l.toServer = [] ∧ l.toClient = []

instance (l : Link) : Decidable l.quiet := inferInstanceAs (Decidable (_ ∧ _ ∧ _))

/-- The topics with a request that has not been answered. -/
def Link.busy (l : Link) : List Str := (l.toServer ++ l.toClient).map (·.topic)

/-- Every `subscribe` and `unsubscribe` for this topic has been answered, or has been reported as failed. -/
def Link.settled (l : Link) (t : Str) : Prop :=
  ∀ r ∈ l.toServer ++ l.toClient, r.topic = t → r.kind ≠ .resub → r.id ∈ l.late

instance (l : Link) (t : Str) : Decidable (l.settled t) := inferInstanceAs (Decidable (∀ r ∈ _, _))

/-- No request times out, and nobody calls `unsubscribe` for a topic while a request for that topic has not been answered. -/
def calmStep (l : Link) : LEv → Bool
  | .timeout _ => false
  | .unsubscribe t => decide (t ∉ l.busy)
  | _ => true

/-- … at every step. -/
def Calm (l : Link) : List LEv → Prop
  | [] => True
  | e :: es => calmStep l e = true ∧ Calm (l.step e) es

instance Calm.dec : (l : Link) → (es : List LEv) → Decidable (Calm l es)
  | _, [] => isTrue trivial
  | l, e :: es => @instDecidableAnd _ _ _ (Calm.dec (l.step e) es)

end Verif.PubSub.Sdk
