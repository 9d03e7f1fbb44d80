import Verif.Model.Session
import Verif.Spec.PubSub
import Verif.Spec.StreamGroup

/-!
# Specification: what the end of a connection leaves behind
-/

namespace Verif.Session

open Verif

/-- The step makes a stream consumer join over connection `conn`. -/
def Req.joinsOver (conn : Str) : Req → Bool
  | .st _ (.join _ k _) => k == conn
  | _ => false

/-- What happens at the pub-sub broker. -/
def opsOf : List Req → List PubSub.Op
  | [] => []
  | .ps op :: rs => op :: opsOf rs
  | _ :: rs => opsOf rs

/-- What happens at topic `n` of the stream broker. -/
def eventsOf (n : Str) : List Req → List Stream.Ev
  | [] => []
  | .st m e :: rs => if m = n then e :: eventsOf n rs else eventsOf n rs
  | _ :: rs => eventsOf n rs

def SEv.isCleanup : SEv → Bool
  | .cleanup _ => true
  | _ => false

/-- When the tasks of the connection are aborted, none that is being executed at this very moment has still to join a
group. -/
def NoJoinRunning (c : Conn) : List SEv → Prop
  | [] => True
  | e :: es =>
    (c.status = .ended → e.isCleanup = true →
      ∀ t ∈ c.tasks, t.polled = true → ∀ r ∈ t.todo, r.joinsOver c.conn = false)
    ∧ NoJoinRunning (c.step e).1 es

instance NoJoinRunning.dec : (es : List SEv) → (c : Conn) → Decidable (NoJoinRunning c es)
  | [], _ => isTrue True.intro
  | e :: es, c => by
    unfold NoJoinRunning
    have := NoJoinRunning.dec es (c.step e).1
    infer_instance

instance (c : Conn) (es : List SEv) : Decidable (NoJoinRunning c es) := NoJoinRunning.dec es c

/-- Nobody else uses the name of this connection (it is a random UUID). -/
def NameIsOwn (conn : Str) (es : List SEv) : Prop := ∀ r, SEv.other r ∈ es → r.joinsOver conn = false

/-- Nothing of connection `conn` is left at the stream broker: no consumer of any group of any topic has joined over it,
and every message that is held is held by a consumer of another connection. -/
def NothingLeft (conn : Str) (w : World) : Prop :=
  ∀ n t name g, mget w.topics n = some t → mget t.groups name = some g →
    (∀ c, mget g.members c ≠ some conn)
    ∧ ∀ s p, mget g.pending s = some p → ∃ k, mget g.members p.consumer = some k ∧ k ≠ conn

end Verif.Session
