import Verif.Model.StreamTopic

/-!
# Specification: what happens to one message in one consumer group

`Fate` is the life of one message in one group, as told by the requests and answers alone: it is `fresh` until it is
delivered, `held` by the consumer it was delivered to, `waiting` for redelivery after its holder has left or let the
deadline pass, and finally acknowledged, given up (delivered as often as allowed), removed by retention or skipped by a
seek.  `View` follows a group through a history of events and answers; it looks at no state of the server.
-/

namespace Verif.Stream

inductive Fate where
  | fresh
  | held (consumer : Str) (at_ count : Nat)
  | waiting (count : Nat)
  | acked
  | gaveUp
  | removed
  | skipped
  deriving DecidableEq, Repr

/-- How often a message that is fresh, held or waiting has been delivered. -/
def Fate.count : Fate → Nat
  | .held _ _ n => n
  | .waiting n => n
  | _ => 0

/-- A held message is taken back: it is given up after `max` deliveries, else it waits for redelivery. -/
def Fate.release (max : Nat) : Fate → Fate
  | .held _ _ n => if max ≤ n then .gaveUp else .waiting n
  | f => f

/-- What can be seen of a group. -/
inductive Obs where
  | delivered (consumer : Str) (now seq : Nat)
  | acked (seq : Nat)
  | left (who : Str → Bool)
  | tick (now : Nat)
  | removed (head : Nat)
  | restarted (first : Nat)

/-- The life of message `s`; `max` deliveries are allowed, the holder has `wait` time units for its acknowledgement. -/
def Fate.step (max wait s : Nat) : Fate → Obs → Fate
  | f, .delivered c now s' => if s' = s then .held c now (f.count + 1) else f
  | f, .acked s' => if s' = s then .acked else f
  | .held c t n, .left who => if who c then (Fate.held c t n).release max else .held c t n
  | f, .left _ => f
  | .held c t n, .tick now => if now - t > wait then (Fate.held c t n).release max else .held c t n
  | f, .tick _ => f
  | f, .removed head => if s < head then .removed else f
  | _, .restarted first => if first ≤ s then .fresh else .skipped

/-- What an observer of group `name` knows: the next sequence number to be published, the oldest retained one, who is a
member (and over which connection), how often the group has been sought (`gen - 1`), and the fate of each message. -/
structure View where
  known : Bool
  next : Nat
  head : Nat
  members : List (Str × Str)
  gen : Nat
  fate : Nat → Fate

/-- All messages at once. -/
def fates (max wait : Nat) (F : Nat → Fate) (o : Obs) : Nat → Fate := fun s => (F s).step max wait s o

/-- The messages of one answer, in order. -/
def deliveries (consumer : Str) (now : Nat) (ms : List Msg) : List Obs := ms.map (fun m => .delivered consumer now m.seq)

namespace View

def obs (max wait : Nat) (v : View) (os : List Obs) : View := { v with fate := os.foldl (fates max wait) v.fate }

/-- The messages of an answer to a fetch. -/
def answer (max wait : Nat) (name : Str) (v : View) (now : Nat) : Out → View
  | .fetched q (.ok ms) => if q.group = name then v.obs max wait (deliveries q.consumer now ms) else v
  | _ => v

/-- The observer sees an event and its answer. -/
def step (max wait : Nat) (name : Str) (v : View) : Ev × Out → View
  | (.publish _ _, _) => { v with next := v.next + 1 }
  | (.join g conn c, _) =>
    if g = name then
      { (if v.known then v else v.obs max wait [.restarted v.head]) with
          known := true, members := (c, conn) :: v.members }
    else v
  | (.leave g c _ _, .ok) =>
    if g = name then
      { v.obs max wait [.left (fun c' => decide (c' = c))] with members := v.members.filter (fun m => m.1 ≠ c) }
    else v
  | (.disconnect conn _, _) =>
    { v.obs max wait [.left (fun c => decide ((c, conn) ∈ v.members))] with
        members := v.members.filter (fun m => m.2 ≠ conn) }
  | (.attempt _ now, o) => v.answer max wait name now o
  | (.finish _ now, o) => v.answer max wait name now o
  | (.ack g _ _ s, .ok) => if g = name then v.obs max wait [.acked s] else v
  | (.seek g toEnd, _) =>
    if g = name then
      { v.obs max wait [.restarted (if toEnd then v.next else v.head)] with
          known := true, gen := v.gen + 1, members := [] }
    else v
  | (.tick now _, _) => v.obs max wait [.tick now]
  | (.retainDone, .retained head) => { v.obs max wait [.removed head] with head }
  | _ => v

/-- The observer of a group of a topic that has just been created or restored: everything above the progress that the
group had is fresh. -/
def start (t : Topic) (name : Str) : View :=
  { known := mhas t.groups name, next := t.log.next, head := t.log.head, members := [], gen := 1
    fate := fun s =>
      match mget t.groups name with
      | some g => if g.floor < s then .fresh else .skipped
      | none => .skipped }

/-- The observer after a history. -/
def after (max wait : Nat) (name : Str) (v : View) (h : List (Ev × Out)) : View := h.foldl (step max wait name) v

end View

/-- The history of events with their answers. -/
def Topic.trace (crc : Bytes → Nat) (t : Topic) : List Ev → List (Ev × Out)
  | [] => []
  | e :: es => (e, (t.step crc e).2) :: Topic.trace crc (t.step crc e).1 es

/-- The consumer ids that the joins of a history hand out for group `name`. -/
def joinIds (name : Str) : List Ev → List Str
  | [] => []
  | .join g _ c :: es => if g = name then c :: joinIds name es else joinIds name es
  | _ :: es => joinIds name es

/-- The files of a topic are in order: the records of the newest segment carry consecutive numbers, none below the
oldest segment, and no segment is named after a message that has not been published yet.  (`C57` says when a crash
leaves the files like that.) -/
structure GoodDisk (crc : Bytes → Nat) (lossy : Bytes → Str) (d : Disk) : Prop where
  consecutive : ∀ i m m0, (recover crc lossy d).msgs[i]? = some m → (recover crc lossy d).msgs.head? = some m0 →
    m.seq = m0.seq + i
  above : ∀ m ∈ (recover crc lossy d).msgs, max d.headSeq 1 ≤ m.seq
  starts : ∀ s ∈ d.segs, s.start ≤ (((recover crc lossy d).msgs.getLast?.map (·.seq + 1)).getD (max d.headSeq 1))

/-- A topic at the start of a run of the server: created, or restored from files that are in order.  At least one
delivery per message is allowed. -/
def Started (crc : Bytes → Nat) (t : Topic) : Prop :=
  1 ≤ t.cfg.maxDeliveries ∧ ∃ lossy d, GoodDisk crc lossy d ∧ t = Topic.build crc t.cfg lossy d

/-- What the observer of group `name` knows after the history `es` of a run that has started with `t`. -/
def viewAfter (crc : Bytes → Nat) (t : Topic) (name : Str) (es : List Ev) : View :=
  View.after t.cfg.maxDeliveries t.cfg.ackWait name (View.start t name) (t.trace crc es)

/-- The sequence numbers that an answer delivers to group `name`. -/
def Out.gives (name : Str) : Out → List Nat
  | .fetched q (.ok ms) => if q.group = name then ms.map (·.seq) else []
  | _ => []

/-- What the event `e` after the history `es` delivers to group `name`. -/
def given (crc : Bytes → Nat) (t : Topic) (name : Str) (es : List Ev) (e : Ev) : List Nat :=
  ((t.run crc es).step crc e).2.gives name

/-- The event `e` after the history `es` delivers message `s` of group `name` to consumer `c` at time `now`. -/
def Delivers (crc : Bytes → Nat) (t : Topic) (name : Str) (es : List Ev) (e : Ev) (c : Str) (now s : Nat) : Prop :=
  ((∃ id, e = .attempt id now) ∨ ∃ id, e = .finish id now) ∧
  ∃ q ms, ((t.run crc es).step crc e).2 = .fetched q (.ok ms) ∧ q.group = name ∧ q.consumer = c ∧ ∃ m ∈ ms, m.seq = s

/-- Is this event a seek of group `name`? -/
def Ev.isSeek (name : Str) : Ev → Bool
  | .seek g _ => decide (g = name)
  | _ => false

/-- How often message `s` has been delivered to group `name` since the last seek. -/
def sinceSeek (name : Str) (s : Nat) (h : List (Ev × Out)) : Nat :=
  h.foldl (fun n x => if x.1.isSeek name then 0 else n + (x.2.gives name).count s) 0

/-- No seek of group `name` in a history. -/
def NoSeek (name : Str) (es : List Ev) : Prop := ∀ b, Ev.seek name b ∉ es

/-- Nothing more is owed to the group for this message. -/
def Fate.settled : Fate → Bool
  | .fresh => false
  | .held .. => false
  | .waiting _ => false
  | _ => true

/-- `g'` is the group `g` after the unacknowledged messages with `gone` have been taken back from their holders, and
nothing else has happened to its messages. -/
structure Released (max : Nat) (gone : Pend → Prop) (g g' : Group) : Prop where
  kept : ∀ s p, mget g.pending s = some p → ¬ gone p → mget g'.pending s = some p
  taken : ∀ s p, mget g.pending s = some p → gone p →
    mget g'.pending s = none ∧ (s ∈ g'.redeliver ↔ p.count < max)
  nothingNew : ∀ s p, mget g'.pending s = some p → mget g.pending s = some p
  queued : ∀ s, s ∈ g.redeliver → s ∈ g'.redeliver
  queuedOnly : ∀ s, s ∈ g'.redeliver → s ∈ g.redeliver ∨ ∃ p, mget g.pending s = some p ∧ gone p
  next : g'.next = g.next

/-- The messages that the publishes of a history create if the next sequence number is `first`. -/
def published (first : Nat) : List Ev → List Msg
  | [] => []
  | .publish ts p :: es => { seq := first, timestamp := ts, payload := p } :: published (first + 1) es
  | _ :: es => published first es

/-- The sequence numbers that publishes have been answered with. -/
def answered : List (Ev × Out) → List Nat
  | [] => []
  | (_, .published s) :: h => s :: answered h
  | _ :: h => answered h

/-- The operations of group `name`: joins, leaves, acknowledgements, seeks, and the steps of its fetches. -/
def Ev.of (t : Topic) (name : Str) : Ev → Prop
  | .join g _ _ => g = name
  | .leave g _ _ _ => g = name
  | .ack g _ _ _ => g = name
  | .seek g _ => g = name
  | .attempt id _ => ∃ op, mget t.fetches id = some op ∧ op.group = name
  | .finish id _ => ∃ op, mget t.fetches id = some op ∧ op.group = name
  | .giveUp id => ∃ op, mget t.fetches id = some op ∧ op.group = name
  | _ => False

/-- An event that is none of group `name`'s business: not one of its operations, nobody disconnects, no deadline is
checked, retention reports nothing, and no fetch of the group is dropped. -/
def Ev.quiet (t : Topic) (name : Str) : Ev → Prop
  | .disconnect _ _ => False
  | .tick _ _ => False
  | .retainDone => False
  | .abort id => ∀ op, mget t.fetches id = some op → op.group ≠ name
  | e => ¬ Ev.of t name e

/-- A history without business for group `name`. -/
def Quiet (crc : Bytes → Nat) (name : Str) : Topic → List Ev → Prop
  | _, [] => True
  | t, e :: es => e.quiet t name ∧ Quiet crc name (t.step crc e).1 es

/-- A fetch that the storage task works on, or has just answered. -/
def FetchOp.onDisk (op : FetchOp) : Bool :=
  match op.phase with
  | .ready => false
  | .waiting => false
  | _ => true

/-- No fetch is dropped while the storage task works on it. -/
def NoDiskAbort (crc : Bytes → Nat) : Topic → List Ev → Prop
  | _, [] => True
  | t, e :: es => (∀ id op, e = .abort id → mget t.fetches id = some op → op.onDisk = false)
    ∧ NoDiskAbort crc (t.step crc e).1 es

/-- How many commands the storage task handles in a history. -/
def storages : List Ev → Nat
  | [] => 0
  | .storage _ :: es => storages es + 1
  | _ :: es => storages es

/-- The group is owed message `s`: it has not been delivered, or waits for redelivery. -/
def Fate.owed : Fate → Bool
  | .fresh => true
  | .waiting _ => true
  | _ => false

/-- Message `s` has been delivered and is not settled yet. -/
def Fate.isHeld : Fate → Bool
  | .held .. => true
  | _ => false

/-- The group that an event may create. -/
def Ev.creates : Ev → Option Str
  | .join g _ _ => some g
  | .seek g _ => some g
  | _ => none

/-- A name that fits its length field and is valid text. -/
def NameOk (lossy : Bytes → Str) (n : Str) : Prop := n.length < 2 ^ 16 ∧ lossy n = n

end Verif.Stream
