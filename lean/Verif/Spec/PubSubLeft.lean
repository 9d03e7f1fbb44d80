import Verif.Spec.PubSubRace
import Verif.Spec.PubSubScan

/-! # What overlapping publish/subscribe requests leave behind -/

namespace Verif.PubSub.Race

/-- No request is in progress. -/
def State.rest (s : State) : Prop := ∀ id, s.done id

/-- The client is in the table of clients, as the dashboard shows it. -/
def State.connected (s : State) (c : Cid) : Bool := (mget s.clients c).isSome

/-- The last request of the connected client about the pattern was a subscription (newest event first). -/
def wantsRev (c : Cid) (p : Str) : List Ev → Bool
  | [] => false
  | .connect d :: es => decide (d ≠ c) && wantsRev c p es
  | .start _ (.subscribe d q) :: es => (decide (d = c ∧ q = p) && es.contains (.connect c)) || wantsRev c p es
  | .start _ (.unsubscribe d q) :: es => !decide (d = c ∧ q = p) && wantsRev c p es
  | _ :: es => wantsRev c p es

def wants (c : Cid) (p : Str) (es : List Ev) : Bool := wantsRev c p es.reverse

/-- The client connects once (connections get new names), waits for the answers to its requests about a pattern before it makes
the opposite request, and is not removed from the table of clients while it subscribes. -/
structure Calm (c : Cid) (es : List Ev) : Prop where
  once : ∀ x y, es = x ++ Ev.connect c :: y → Ev.connect c ∉ x
  sub : ∀ x y i p, es = x ++ Ev.start i (.subscribe c p) :: y → (run {} x).free (.unsubscribe c p)
  unsub : ∀ x y i p, es = x ++ Ev.start i (.unsubscribe c p) :: y → (run {} x).free (.subscribe c p)
  drop : ∀ x y e p, es = x ++ e :: y → (run {} x).connected c = true → (run {} (x ++ [e])).connected c = false →
    (run {} x).free (.subscribe c p)

/-- A task of a publish on this topic. -/
def Task.publishes (t : Str) : Task → Bool
  | .route topic _ => decide (topic = t)
  | .send msg _ _ => decide (msg.topic = t)
  | _ => false

/-- The messages on a topic that were put into the channel of a client, in order. -/
def aboutTo (c : Cid) (t : Str) (l : List Sent) : List Sent := l.filter (fun x => decide (x.to = c ∧ x.msg.topic = t))

/-- What a connected client is sent if it subscribes to the topic now, undisturbed. -/
def greeting (s : State) (now : Nat) (c : Cid) (t : Str) (id : Nat) : List Msg :=
  (outs s [.start id (.subscribe c t), .next id now]).map (·.msg)

end Verif.PubSub.Race
