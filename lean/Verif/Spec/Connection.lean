import Verif.Model.Connection

/-!
# What a client sees of a connection
-/

namespace Verif.Wire

/-- The frames the client has sent, in order. -/
def reads : List CEvent → List Frame
  | [] => []
  | .read f :: t => f :: reads t
  | _ :: t => reads t

/-- The packets the pub-sub engine has sent to the client, in order. -/
def pushedOf : List CEvent → List Bytes
  | [] => []
  | .pushed p :: t => p :: pushedOf t
  | _ :: t => pushedOf t

/-- How often the client has used the id `id`. -/
def requested (id : Nat) (evs : List CEvent) : Nat := (reads evs).countP (fun f => f.id = id)

/-- Is this the answer to a request with id `id`? -/
def isAnswer (id : Nat) : Outbound → Bool
  | .response i _ => i = id
  | .push _ _ => false

/-- How many answers to id `id` are in the list. -/
def answers (id : Nat) (os : List Outbound) : Nat := os.countP (isAnswer id)

/-- The push packets in the list, in order. -/
def pushesIn : List Outbound → List Bytes
  | [] => []
  | .push _ p :: t => p :: pushesIn t
  | .response _ _ :: t => pushesIn t

/-- No task of the server has anything left to do on this connection. -/
def Conn.Idle {E : Type} (s : Conn E) : Prop :=
  s.inbound = [] ∧ s.running = [] ∧ s.answered = [] ∧ s.pushes = [] ∧ s.outbound = []

end Verif.Wire
