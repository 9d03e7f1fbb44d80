import Verif.Model.DashboardPages

/-!
# Model: going through the pages of a queue while it is used

`/repo/dashboard/src/pages/dashboard/components/queue/queue.tsx:52-90`, `285-294`, on the answers of `Model/Dashboard.lean`
(`/repo/src/brokers/queue/http.rs:120-147`).

Simplification: what happens to the queue happens between the press of a button and the answer for the new page.  A page that is
fetched again while it is shown is not modelled.
-/

namespace Verif.Dashboard

open Verif.Queue (QInner Op)

/-- The messages shown from the page at `offset` on, and whether the last page was reached: before each further page "Next" is pressed
(`queue.tsx:293-294`), and then the requests of a list are executed by the queue.  "Next" is disabled on the last page, and the walk ends. -/
def pageWalk (lossy : Bytes → Str) (v : View) : QInner → Nat → List (List Op) → List Nat × Bool
  | q, offset, [] =>
    let r := queueMessages lossy (some q) (v.query offset)
    (r.ids, !nextOn pageSize r.total offset)
  | q, offset, ops :: rest =>
    let r := queueMessages lossy (some q) (v.query offset)
    if nextOn pageSize r.total offset then
      let w := pageWalk lossy v (Queue.run q ops).1 (turn pageSize r.total offset .next) rest
      (r.ids ++ w.1, w.2)
    else (r.ids, true)

end Verif.Dashboard
