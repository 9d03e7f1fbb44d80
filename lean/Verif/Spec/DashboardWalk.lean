import Verif.Props.DashboardPages

/-! # Specification: nothing disappears from a view (C133) -/

namespace Verif.Dashboard

open Verif.Queue

/-- While the requests are executed, no message disappears from the view (no message stops waiting, or leaves flight, or is no longer a
dead letter): whatever belongs to it before a request belongs to it after the request. -/
def Stays (v : View) : QInner → List Op → Prop
  | _, [] => True
  | q, op :: ops => (∀ id ∈ v.all q, id ∈ v.all (Queue.step q op).1) ∧ Stays v (Queue.step q op).1 ops

end Verif.Dashboard
