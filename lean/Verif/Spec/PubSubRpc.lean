import Verif.Model.PubSubRpc
import Verif.Spec.PubSub
import Verif.Spec.QueueRpc

/-!
# Publish/subscribe behind the network: vocabulary
-/

namespace Verif.Rpc

open Verif Verif.Wire Verif.Sdk

variable {E I : Type}

def isPubSub : Cmd → Bool
  | .publish .. | .subscribe _ | .unsubscribe _ => true
  | _ => false

/-- The broker's own tasks, and what connections tell it. -/
def ofHub : PubSub.Op → Bool
  | .connect _ | .drop _ | .disconnect _ | .cleanup _ | .flush .. => true
  | _ => false

/-- The server has a publish/subscribe broker (`part`) that only its commands and its own steps (`bg`) touch; `desk` are the steps with
which connections begin and end.  Whatever else is in the engine is left open. -/
structure PubPart (srv : Server E I) (env : HubEnv) (part : E → Hub) (bg : I → Option PubSub.Op) (desk : Desk I) : Prop where
  exec : ∀ l now cmd e, isPubSub cmd = true →
    (part (srv.exec l now cmd e).1, (srv.exec l now cmd e).2) = hubExec env l now cmd (part e)
  other : ∀ l now cmd e, isPubSub cmd = false → part (srv.exec l now cmd e).1 = part e
  tick : ∀ x e, part (srv.tick x e) = match bg x with | some op => (part e).step env op | none => part e
  tasks : ∀ x op, bg x = some op → ofHub op = true
  opened : ∀ l, bg (desk.opened l) = some (.connect l)
  faded : ∀ l, bg (desk.faded l) = some (.drop l)
  left : ∀ l, bg (desk.left l) = some (.disconnect l)

/-- A run: the server starts with engine `e0`. -/
def hubWorld (pr : Printer) (srv : Server E I) (desk : Desk I) (bg : I → Option PubSub.Op) (part : E → Hub) (e0 : E) (es : List (HEv I)) : World E :=
  ((World.init e0).run pr srv (expand pr srv desk bg part (World.init e0) es)).1

/-- What could be seen in it. -/
def hubTrace (pr : Printer) (srv : Server E I) (desk : Desk I) (bg : I → Option PubSub.Op) (part : E → Hub) (e0 : E) (es : List (HEv I)) : List (Obs I) :=
  ((World.init e0).run pr srv (expand pr srv desk bg part (World.init e0) es)).2

/-- The pushes that the clients read in it. -/
def hubPushes (pr : Printer) (srv : Server E I) (desk : Desk I) (bg : I → Option PubSub.Op) (part : E → Hub) (e0 : E) (es : List (HEv I)) :
    List (Nat × Bytes) :=
  arrivals pr srv (World.init e0) (expand pr srv desk bg part (World.init e0) es)

/-- A push on the wire: the length of the topic, the topic, the payload. -/
def readPush (b : Bytes) : PubSub.Msg :=
  let k := beVal (b.take 4)
  ⟨(b.drop 4).take k, b.drop (4 + k)⟩

/-- The messages that arrived at the client over connection `l`, in order. -/
def arrivedOver (l : Nat) (arr : List (Nat × Bytes)) : List PubSub.Msg :=
  arr.filterMap (fun e => if e.1 = l then some (readPush e.2) else none)

/-- The act ends connection `l` for the broker. -/
def endsLink (bg : I → Option PubSub.Op) (l : Nat) (a : Act I) : Prop :=
  ∃ x, a = .ticked x ∧ (bg x = some (.drop l) ∨ bg x = some (.disconnect l))

/-- After the acts `u`, connection `l` is subscribed to pattern `p`: it has subscribed, and since then it has not unsubscribed, nor
ended. -/
def Tuned (bg : I → Option PubSub.Op) (l : Nat) (p : Str) (u : List (Act I)) : Prop :=
  ∃ x now r y, u = x ++ .did l (.subscribe p) now r :: y ∧ (∀ now r, .did l (.unsubscribe p) now r ∉ y) ∧ ∀ a ∈ u, ¬ endsLink bg l a

/-- After the acts `u`, connection `l` is to get what is published on `topic`. -/
def Listens (bg : I → Option PubSub.Op) (l : Nat) (topic : Str) (u : List (Act I)) : Prop :=
  ∃ p, Tuned bg l p u ∧ PubSub.Matches (PubSub.split p) (PubSub.split topic)

/-- In the patterns of these acts `#` comes only last. -/
def ProperActs (A : List (Act I)) : Prop :=
  ∀ l p now r, Act.did l (.subscribe p) now r ∈ A ∨ Act.did l (.unsubscribe p) now r ∈ A → PubSub.hashLast (PubSub.split p) = true

/-- What an act after the acts `u` says to connection `l`. -/
structure Says (bg : I → Option PubSub.Op) (l : Nat) (u : List (Act I)) (a : Act I) (msgs : List PubSub.Msg) : Prop where
  /-- a publish says its message, once, if the connection listens -/
  pub : ∀ c topic opts payload now, a = .did c (.publish topic opts payload) now (some .ok) →
    (Listens bg l topic u → msgs = [⟨topic, payload⟩]) ∧ (¬ Listens bg l topic u → msgs = [])
  /-- a publish that is not answered with ok says nothing -/
  failed : ∀ c topic opts payload now, a = .did c (.publish topic opts payload) now none → msgs = []
  /-- nothing else says anything, but the connection's own subscriptions -/
  rest : (∀ c topic opts payload now r, a ≠ .did c (.publish topic opts payload) now r) →
    (∀ p now r, a ≠ .did l (.subscribe p) now r) → msgs = []

/-- `said` lists, act by act, what the acts `A` say to connection `l`. -/
def Script (bg : I → Option PubSub.Op) (l : Nat) (A : List (Act I)) (said : List (List PubSub.Msg)) : Prop :=
  said.length = A.length ∧ ∀ u a w, A = u ++ a :: w → ∀ msgs, said[u.length]? = some msgs → Says bg l u a msgs

/-- A publish on `topic` that is to be retained, and that was answered with ok. -/
def retains (topic : Str) : Act I → Bool
  | .did _ (.publish t opts _) _ (some .ok) => decide (t = topic) && decide (opts.retain = some true)
  | _ => false

/-- After the acts `u`, the value retained for `topic` is `data`, until time `till`: it is that of the latest retained publish on the topic, and
it is not empty. -/
def Held (dflt : Nat) (u : List (Act I)) (topic : Str) (data : Bytes) (till : Nat) : Prop :=
  ∃ x c opts now y, u = x ++ .did c (.publish topic opts data) now (some .ok) :: y ∧ opts.retain = some true ∧ data ≠ [] ∧
    till = now + opts.ttl.getD dflt * PubSub.second ∧ ∀ a ∈ y, retains topic a = false

/-- What a subscription is greeted with, in the acts `A`: nothing, if the connection has ended; otherwise the values retained for the matching
topics, each once. -/
def Greeted (dflt : Nat) (bg : I → Option PubSub.Op) (l : Nat) (A : List (Act I)) (said : List (List PubSub.Msg)) : Prop :=
  ∀ u p now r v, A = u ++ .did l (.subscribe p) now r :: v → ∀ msgs, said[u.length]? = some msgs →
    ((∃ a ∈ u, endsLink bg l a) → msgs = []) ∧
    ((∀ a ∈ u, ¬ endsLink bg l a) → (msgs.map (·.topic)).Nodup ∧
      ∀ m, m ∈ msgs ↔ PubSub.Matches (PubSub.split p) (PubSub.split m.topic) ∧ ∃ till, Held dflt u m.topic m.payload till ∧ now < till)

/-- The readings of the monotonic clock in an act. -/
def readings (bg : I → Option PubSub.Op) : Act I → List Nat
  | .did _ _ now _ => [now]
  | .ticked x => match bg x with | some (.cleanup now) | some (.flush now _) => [now] | _ => []

/-- The monotonic clock does not go back. -/
def ClockActs (bg : I → Option PubSub.Op) (t0 : Nat) (A : List (Act I)) : Prop := (t0 :: A.flatMap (readings bg)).Pairwise (· ≤ ·)

/-- No topic of a retained publish begins with `/`. -/
def PlainActs (A : List (Act I)) : Prop :=
  ∀ c topic opts payload now r, Act.did c (.publish topic opts payload) now r ∈ A → opts.retain = some true → topic.head? ≠ some PubSub.slash

/-- Nothing that was sent to connection `l` is on its way to the client. -/
def Delivered (w : World E) (l : Nat) : Prop :=
  (w.links l).conn.pushes = [] ∧ (w.links l).conn.outbound = [] ∧ (w.links l).toClient = []

/-- The bridge, the socket task, the network and the client at work on connection `l`. -/
def Ev.pumps (l : Nat) : Ev I → Bool
  | .server l' _ .bridge | .server l' _ .write | .toClient l' _ => l' == l
  | _ => false

end Verif.Rpc
