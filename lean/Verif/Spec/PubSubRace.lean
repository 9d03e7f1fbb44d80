import Verif.Model.PubSubRace
import Verif.Spec.PubSub

/-! # What clients of overlapping publish/subscribe requests can observe -/

namespace Verif.PubSub.Race

/-- The numbers of the requests that have begun. -/
def starts : List Ev → List Nat
  | [] => []
  | .start id _ :: es => id :: starts es
  | _ :: es => starts es

/-- The request has been answered (or has not begun). -/
def State.done (s : State) (id : Nat) : Prop := mget s.tasks id = none

instance (s : State) (id : Nat) : Decidable (s.done id) := inferInstanceAs (Decidable (_ = _))

/-- No request of this kind is in progress. -/
def State.free (s : State) (t : Task) : Prop := ∀ id, mget s.tasks id ≠ some t

/-- The messages that one request has put into the channel of one client. -/
def byTo (id : Nat) (c : Cid) (l : List Sent) : List Sent := l.filter (fun x => decide (x.by_ = id ∧ x.to = c))

/-- The patterns in the requests are proper. -/
def Proper (es : List Ev) : Prop :=
  (∀ id c p, Ev.start id (.subscribe c p) ∈ es → hashLast (split p) = true) ∧
  (∀ id c p, Ev.start id (.unsubscribe c p) ∈ es → hashLast (split p) = true)

/-- After these events the client is not subscribed to the pattern, and no request of it is about to change that: it never
subscribed, or the last thing it did was to unsubscribe, after its subscriptions had been answered. -/
def Absent (c : Cid) (p : Str) (es : List Ev) : Prop :=
  (∀ id, Ev.start id (.subscribe c p) ∉ es) ∨
  ∃ x id y, es = x ++ Ev.start id (.unsubscribe c p) :: y ∧ (run {} x).free (.subscribe c p) ∧
    (∀ id, Ev.start id (.subscribe c p) ∉ y) ∧ (run {} es).done id

end Verif.PubSub.Race
