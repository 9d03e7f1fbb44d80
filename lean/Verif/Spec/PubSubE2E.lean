import Verif.Model.PubSubE2E
import Verif.Spec.PubSub
import Verif.Spec.SdkSubs

/-! # What publishers and subscribers can observe -/

namespace Verif.PubSub.E2E

open Verif.PubSub Verif.PubSub.Sdk

/-- What concerns the client's own subscriptions, among the events. -/
def NEv.link? : NEv → Option LEv
  | .subscribe t => some (.subscribe t)
  | .unsubscribe t => some (.unsubscribe t)
  | .serve i _ _ => some (.serve i)
  | .answer i => some (.answer i)
  | .timeout id => some (.timeout id)
  | .lost => some .lost
  | .reconnect _ => some .reconnect
  | .other _ => none
  | .arrive => none

def linkEvents (es : List NEv) : List LEv := es.filterMap NEv.link?

/-- The messages that are published by these events, in order.  (A publish that asks for a time to live beyond the range
of the clock fails and publishes nothing.) -/
def published (dflt : Nat) : List NEv → List Msg
  | [] => []
  | .other (.publish topic data keep ttl now _) :: es =>
    if keep = true ∧ data ≠ [] ∧ representable now (ttl.getD dflt) = false then published dflt es
    else ⟨topic, data⟩ :: published dflt es
  | _ :: es => published dflt es

/-- What the callback for a pattern was called with, in order. -/
def callsOf (p : Str) (calls : List (Str × Push)) : List Push :=
  (calls.filter (fun e => decide (e.1 = p))).map (·.2)

/-- The messages that were sent because they were published. -/
def fresh (l : List Push) : List Msg := (l.filter (fun x => !x.greeting)).map (·.msg)

open Classical in
/-- Those on topics that match a pattern. -/
noncomputable def matching (p : Str) (l : List Msg) : List Msg :=
  l.filter (fun m => decide (Matches (split p) (split m.topic)))

/-- The server has not ended this connection. -/
def notEnded (c : Cid) (h : List Op) : Prop := Op.drop c ∉ h ∧ Op.disconnect c ∉ h

instance (c : Cid) (h : List Op) : Decidable (notEnded c h) := inferInstanceAs (Decidable (_ ∧ _))

end Verif.PubSub.E2E

namespace Verif.PubSub.E2E

open Verif.PubSub

/-- Where a message comes from: a publish, or the value retained for a topic, by a publish or since before the start.
(A retained value is announced without the separators its topic begins with, see C18.) -/
def Origin (db : List Row) (h : List Op) (x : Push) : Prop :=
  if x.greeting then
    ∃ topic, x.msg.topic = topic.dropWhile (· == slash) ∧
      ((∃ ttl now unixNow, Op.publish topic x.msg.payload true ttl now unixNow ∈ h) ∨ ∃ u, (topic, x.msg.payload, u) ∈ db)
  else ∃ keep ttl now unixNow, Op.publish x.msg.topic x.msg.payload keep ttl now unixNow ∈ h

end Verif.PubSub.E2E
