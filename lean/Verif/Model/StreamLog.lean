import Verif.Model.StreamGroup

/-!
# Model of a topic's in-memory log

`/repo/src/brokers/stream/domain/topic.rs`.
-/

namespace Verif.Stream

/-- `topic.rs:62-71` `struct TopicState` (without the name). -/
structure Log where
  msgs : List Msg
  next : Nat
  head : Nat
  ramStart : Nat
  softLimit : Nat
  deriving DecidableEq, Repr

namespace Log

/-- `topic.rs:74-83` `new`. -/
def new (softLimit : Nat) : Log := { msgs := [], next := 1, head := 1, ramStart := 1, softLimit }

/-- `topic.rs:85-97` `restore`. -/
def restore (softLimit head : Nat) (msgs : List Msg) : Log :=
  { msgs
    next := (msgs.getLast?.map (·.seq + 1)).getD (max head 1)
    head
    ramStart := (msgs.head?.map (·.seq)).getD (max ((msgs.getLast?.map (·.seq + 1)).getD (max head 1)) head)
    softLimit }

/-- `topic.rs:99-118` `append`; the timestamp is an input. -/
def append (l : Log) (ts : Nat) (payload : Bytes) : Log × Msg :=
  ({ l with ramStart := if l.msgs.isEmpty then l.next else l.ramStart
            msgs := l.msgs ++ [{ seq := l.next, timestamp := ts, payload }]
            next := l.next + 1 },
   { seq := l.next, timestamp := ts, payload })

/-- `topic.rs:120-131` `read`. -/
def read (l : Log) (fromSeq limit : Nat) : List Msg :=
  if l.ramStart ≤ max (max fromSeq l.head) 1 && !l.msgs.isEmpty
      && decide (max (max fromSeq l.head) 1 - l.ramStart < l.msgs.length) then
    (l.msgs.drop (max (max fromSeq l.head) 1 - l.ramStart)).take limit
  else []

/-- The `while` loop of `topic.rs:134-148` `evict`, over the messages in memory. -/
def evictLoop (soft persisted head : Nat) : List Msg → Nat → List Msg × Nat
  | [], rs => ([], rs)
  | m :: ms, rs =>
    if soft < (m :: ms).length then
      if m.seq ≤ persisted then evictLoop soft persisted head ms (max (m.seq + 1) head)
      else (m :: ms, rs)
    else (m :: ms, rs)

/-- `topic.rs:134-148` `evict`. -/
def evict (l : Log) (persisted : Nat) : Log :=
  { l with msgs := (evictLoop l.softLimit persisted l.head l.msgs l.ramStart).1
           ramStart := (evictLoop l.softLimit persisted l.head l.msgs l.ramStart).2 }

/-- `topic.rs:150-164` `apply_head`. -/
def applyHead (l : Log) (head : Nat) : Log :=
  { l with head := max head 1
           msgs := l.msgs.dropWhile (fun m => decide (m.seq < max head 1))
           ramStart := ((l.msgs.dropWhile (fun m => decide (m.seq < max head 1))).head?.map (·.seq)).getD
             (max l.next (max head 1)) }

end Log
end Verif.Stream
