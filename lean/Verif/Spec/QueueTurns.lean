import Verif.Spec.QueueE2E

/-! # The order in which the messages of a queue are handed out and processed -/

namespace Verif.QueueE2E

open Verif.Queue (Id Msg Config Sys Op)

/-- The messages the callback of client `k` is called with in a step. -/
def callsByOf (o : Options) (k : Nat) (s : Net) : Event → List Msg
  | .client j e r => if j = k then callsBy o s (.client j e r) else []
  | _ => []

/-- The messages the callback of client `k` was called with, in order. -/
def callsOf (o : Options) (k : Nat) (s : Net) : List Event → List Msg
  | [] => []
  | e :: es => callsByOf o k s e ++ callsOf o k (s.step o e) es

/-- The messages the server hands out in a step, to one of the clients or to somebody else. -/
def handsOut (o : Options) (s : Net) : Event → List Id
  | .exec i now =>
    match s.requests[i]? with
    | some q => (handed (s.server.step (.op (q.op o now))).2).map (·.id)
    | none => []
  | .op x => (handed (s.server.step (.op x)).2).map (·.id)
  | _ => []

/-- The messages the server handed out, in order. -/
def handedOut (o : Options) (s : Net) : List Event → List Id
  | [] => []
  | e :: es => handsOut o s e ++ handedOut o (s.step o e) es

/-- `y` was pushed before `x`, with the same priority or a higher one. -/
def PushedAhead (es : List Event) (y x : Id) : Prop :=
  ∃ (a b c : List Event) (py px : Bytes) (ry rx ty tx : Nat),
    es = a ++ .op (.push y py ry ty) :: b ++ .op (.push x px rx tx) :: c ∧ rx ≤ ry

end Verif.QueueE2E
