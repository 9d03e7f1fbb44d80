import Verif.Model.PubSubScan
import Verif.Spec.PubSub

/-! # What the dashboard is to show -/

namespace Verif.PubSub

/-- A name the dashboard can show: not empty, and it does not begin with a separator. -/
def named (p : Str) : Bool :=
  match p with
  | [] => false
  | c :: _ => decide (c ≠ slash)

/-- The topic contains no wildcard level. -/
def noWild (p : Str) : Bool := (split p).all (fun s => decide (s ≠ plusS) && decide (s ≠ hashS))

/-- The dashboard as a client sees it after a history. -/
def shown (dflt : Nat) (s0 : State) (h : List Op) (now : Nat) (limit offset : Option Nat) (search : Option Str) : Snapshot :=
  let s := (run dflt s0 h).1
  dashboard now limit offset search s.tree (s.clients.map (fun e => (e.1, e.2.subscriptions)))

/-- All pages of a size, one after the other. -/
def pages (dflt : Nat) (s0 : State) (h : List Op) (now : Nat) (search : Option Str) (size : Nat) : Nat → List TopicInfo
  | 0 => []
  | n + 1 => pages dflt s0 h now search size n ++ (shown dflt s0 h now (some size) (some (n * size)) search).topics

end Verif.PubSub
