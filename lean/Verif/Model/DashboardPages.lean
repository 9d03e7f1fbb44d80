import Verif.Model.Dashboard
import Verif.Model.PubSubScan

/-!
# Model of the paging in the dashboard

`/repo/dashboard/src/pages/dashboard/components/queue/queue.tsx:27`, `52-90`, `285-294`, `pubsub/pubsub.tsx:23`, `30-66`, `196-205`,
`store/store.tsx:28-71`, `180-191`, `stream/stream.tsx:24`, `40-69`, `209-226`.  What the server answers is in `Model/Dashboard.lean`,
`Model/PubSubScan.lean` and `Model/Store.lean`.

Simplification: a button is pressed when the answer for the page has come (while it is awaited the buttons are disabled, `isLoading`,
`isRefetching`), so a press knows the total of the answer that is shown.  Numbers are below 2^53.
-/

namespace Verif.Dashboard

open Verif

/-- `queue.tsx:27`, `pubsub.tsx:23`, `stream.tsx:24`: `PAGE_SIZE`. -/
def pageSize : Nat := 50

/-- `store.tsx:28`. -/
def storePageSize : Nat := 500

/-! ### Pages by offset: queues, topics of publish/subscribe, keys -/

inductive Click where
  | next
  | prev
  deriving DecidableEq, Repr

/-- `queue.tsx:90`, `293`, `pubsub.tsx:66`, `204`, `store.tsx:70`, `190`: the button "Next" can be pressed. -/
def nextOn (size total offset : Nat) : Bool := decide (offset + size < total)

/-- `queue.tsx:285`, `pubsub.tsx:196`, `store.tsx:71`, `181`: the button "Prev" can be pressed. -/
def prevOn (offset : Nat) : Bool := decide (offset ≠ 0)

/-- `queue.tsx:286`, `294`, `pubsub.tsx:197`, `205`, `store.tsx:182`, `191`: a press of a button that is disabled does nothing.
(`Math.max(0, a - b)` is the subtraction of natural numbers.) -/
def turn (size total offset : Nat) : Click → Nat
  | .next => if nextOn size total offset then offset + size else offset
  | .prev => if prevOn offset then offset - size else offset

/-- The offset after some presses, from the first page (`queue.tsx:52`, `pubsub.tsx:30`, `store.tsx:29`); `total o` is the total in
the answer for offset `o`. -/
def offsetAfter (size : Nat) (total : Nat → Nat) (cs : List Click) : Nat := cs.foldl (fun o c => turn size (total o) o c) 0

/-- `queue.tsx:30-48`: which messages of a queue are looked at. -/
inductive View where
  | pending
  | inflight
  | dead
  deriving DecidableEq, Repr

/-- `queue.tsx:69`: `stateParam`. -/
def View.state : View → Str
  | .pending => wPending
  | .inflight => wInflight
  | .dead => wDlq

/-- `queue.tsx:70`: the query for a page. -/
def View.query (v : View) (offset : Nat) : QueueQuery := { state := v.state, offset := some offset, limit := some pageSize }

/-- `queue.tsx:89`: `paginatedData?.total || 0`. -/
def QueueReply.total : QueueReply → Nat
  | .messages _ n | .dead _ n => n
  | .notFound => 0

/-- `queue.tsx:88`: the messages shown, by their ids. -/
def QueueReply.ids : QueueReply → List Nat
  | .messages ms _ => ms.map (·.id)
  | .dead ms _ => ms.map (·.id)
  | .notFound => []

/-! ### Streams: pages by number -/

inductive StreamClick where
  | older
  | newer
  deriving DecidableEq, Repr

/-- `stream.tsx:67`: `currentFrom`, the `from_seq` of the answer; `last` is its `last_seq`, `f` is `fromSeq`. -/
def current (last : Nat) (f : Option Nat) : Nat := StreamQuery.start { «from» := f, limit := some pageSize } last

/-- `stream.tsx:68`. -/
def hasOlder (cur : Nat) : Bool := decide (1 < cur)

/-- `stream.tsx:69`. -/
def hasNewer (cur last : Nat) : Bool := decide (cur + pageSize < last)

/-- `stream.tsx:217-218`, `225-226`. -/
def streamTurn (last : Nat) (f : Option Nat) : StreamClick → Option Nat
  | .older => if hasOlder (current last f) then some (max 1 (current last f - pageSize)) else f
  | .newer => if hasNewer (current last f) last then some (current last f + pageSize) else f

/-- `fromSeq` after some presses, from the first page (`stream.tsx:40`). -/
def streamBrowse (last : Nat) (cs : List StreamClick) : Option Nat := cs.foldl (streamTurn last) none

end Verif.Dashboard
