import Verif.Props.DashboardPages

/-! # Specification: how many messages disappear from a view (C133) -/

namespace Verif.Dashboard

open Verif.Queue

/-- How many messages the requests take out of the view, request by request (nothing, for a request after which there are as many or more). -/
def takenOut (v : View) : QInner → List Op → Nat
  | _, [] => 0
  | q, op :: ops => ((v.all q).length - (v.all (Queue.step q op).1).length) + takenOut v (Queue.step q op).1 ops

/-- The message belongs to the view before and after each of the requests. -/
def AllTheTime (v : View) (id : Nat) : QInner → List Op → Prop
  | q, [] => id ∈ v.all q
  | q, op :: ops => id ∈ v.all q ∧ AllTheTime v id (Queue.step q op).1 ops

end Verif.Dashboard
