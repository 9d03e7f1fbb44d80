import Verif.Model.ConnBounded
import Verif.Spec.Connection

/-!
# What is expected of a connection under load
-/

namespace Verif.Wire

/-- The requests the application has made, in order. -/
def asked : List BEvent → List Frame
  | [] => []
  | .ask f :: t => f :: asked t
  | _ :: t => asked t

/-- The packets the pub-sub engine has sent to this client, in order. -/
def bPushed : List BEvent → List Bytes
  | [] => []
  | .pushed p :: t => p :: bPushed t
  | _ :: t => bPushed t

/-- Steps of the client's library, the network and the server, as opposed to new requests and new pushes. -/
def BEvent.work : BEvent → Bool
  | .ask _ | .pushed _ => false
  | _ => true

/-- Nothing is under way. -/
def BConn.Done {E : Type} (s : BConn E) : Prop :=
  s.toSend = [] ∧ s.net = [] ∧ s.sock = .idle ∧ s.inbound = [] ∧ s.running = [] ∧ s.answered = [] ∧ s.pushes = [] ∧ s.bridge = none ∧
    s.outbound = [] ∧ s.wire = []

/-- Everything has room for at least one frame. -/
def Limits.Positive (lim : Limits) : Prop := 0 < lim.chan ∧ 0 < lim.recv ∧ 0 < lim.send

/-- Nobody but a reading client could do anything. -/
def BConn.Stuck {E : Type} (lim : Limits) (handle : Frame → E → E × Option Response) (s : BConn E) : Prop :=
  ∀ e : BEvent, e.work = true → e ≠ .clientRead → s.step lim handle e = none

/-- Requests carried out one after the other: the engine afterwards, and the answers (a task that panics gives none). -/
def serial {E : Type} (handle : Frame → E → E × Option Response) (e : E) : List Frame → E × List (Nat × Response)
  | [] => (e, [])
  | f :: fs =>
    let r := serial handle (handle f e).1 fs
    (r.1, (match (handle f e).2 with | some a => [(f.id, a)] | none => []) ++ r.2)

/-- The answers among the frames, with their ids. -/
def responsesIn : List Outbound → List (Nat × Response)
  | [] => []
  | .response id r :: t => (id, r) :: responsesIn t
  | .push _ _ :: t => responsesIn t

/-- The client reads nothing in this schedule. -/
def Unread (es : List BEvent) : Prop := ∀ e ∈ es, e ≠ .clientRead

end Verif.Wire
