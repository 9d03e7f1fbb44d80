import Verif.Base.Basic
import Verif.Base.AMap
import Verif.Model.Command

/-!
# Model of a consumer group

`/repo/src/brokers/stream/domain/group.rs` and the record type of `/repo/src/brokers/stream/domain/message.rs`.

Sequence numbers, generations and delivery counts are natural numbers: `u64`/`u32` overflow needs 2^64 publishes or
2^64 seeks and is not modelled (`saturating_add` is `+`).  Times (`Instant`) are natural numbers supplied by the caller.
`HashMap`s are association lists; where the code iterates over `pending` the iteration order is an input
(`iterOrder`).  The cancellation token is modelled by a counter: `invalidate_inflight` increments it, and a token taken
earlier is cancelled iff its number differs from the current one.
-/

namespace Verif.Stream

/-- `message.rs:5-9` `struct Message`. -/
abbrev Msg := Wire.SMsg

/-- `group.rs:16-20` `struct PendingMsg`. -/
structure Pend where
  consumer : Str
  at_ : Nat
  count : Nat
  deriving DecidableEq, Repr

/-- `group.rs:26-46` `struct ConsumerGroup` (without the name; `members` maps a consumer to its connection). -/
structure Group where
  floor : Nat
  next : Nat
  pending : List (Nat × Pend)
  redeliver : List Nat
  parked : List Nat
  attempts : List (Nat × Nat)
  maxPending : Nat
  ackWait : Nat
  maxDeliveries : Nat
  members : List (Str × Str)
  fetchingCold : Bool
  gen : Nat
  epoch : Nat
  deriving DecidableEq, Repr

/-- The error strings of `group.rs` and `manager.rs`. -/
inductive GErr where
  | fenced | notMember | notOwner | notPending | groupNotFound | diskReadFailed
  deriving DecidableEq, Repr

/-- `HashSet::insert`. -/
def sinsert (x : Nat) (s : List Nat) : List Nat := if x ∈ s then s else s ++ [x]

/-- `HashSet::remove`. -/
def sremove (x : Nat) (s : List Nat) : List Nat := s.filter (· ≠ x)

/-- A `HashMap` is iterated in an arbitrary order: the order of `order` is used if it mentions each element of `xs`
once. -/
def iterOrder (order xs : List Nat) : List Nat :=
  if (order.filter (fun x => xs.contains x)).isPerm xs then order.filter (fun x => xs.contains x) else xs

namespace Group

/-- `group.rs:49-67` `new`. -/
def new (head maxPending ackWait maxDeliveries : Nat) : Group :=
  { floor := max head 1 - 1, next := max head 1, pending := [], redeliver := [], parked := [], attempts := [],
    maxPending, ackWait, maxDeliveries, members := [], fetchingCold := false, gen := 1, epoch := 0 }

/-- `group.rs:73-91` `restore`. -/
def restore (floor head maxPending ackWait maxDeliveries : Nat) : Group :=
  { floor := max floor (head - 1), next := max (max floor (head - 1) + 1) (max head 1), pending := [], redeliver := [],
    parked := [], attempts := [], maxPending, ackWait, maxDeliveries, members := [], fetchingCold := false, gen := 1,
    epoch := 0 }

/-- `group.rs:69-71` `is_backpressured`. -/
def backpressured (g : Group) : Bool := decide (g.maxPending ≤ g.pending.length)

/-- The `while` loop of `group.rs:350-357`, at most `n` rounds. -/
def advanceN : Nat → Group → Group
  | 0, g => g
  | n + 1, g =>
    if g.floor + 1 < g.next && !mhas g.pending (g.floor + 1) && !g.redeliver.contains (g.floor + 1) then
      advanceN n { g with floor := g.floor + 1 }
    else g

/-- `group.rs:350-357` `try_advance_floor`: each round lowers `next - floor`, so `next` rounds are enough. -/
def advance (g : Group) : Group := advanceN g.next g

/-- `group.rs:359-365` `read_from_log`. -/
def readFromLog (log : List Msg) (ramStart seq : Nat) : Option Msg :=
  if seq < ramStart || log.isEmpty then none else log[seq - ramStart]?

/-- `group.rs:367-375` `ensure_active_consumer`; `none` is `Ok`. -/
def inactive (g : Group) (consumer : Str) (gen : Nat) : Option GErr :=
  if gen ≠ g.gen then some .fenced else if !mhas g.members consumer then some .notMember else none

/-- `group.rs:267-270` `invalidate_inflight`. -/
def invalidate (g : Group) : Group := { g with epoch := g.epoch + 1 }

/-- The attempt number that the next delivery of a message gets: `group.rs:378`. -/
def attempt (g : Group) (seq : Nat) : Nat := (mget g.attempts seq).getD 0 + 1

/-- `group.rs:379-384`: a message that has used up its deliveries is set aside. -/
def park (g : Group) (seq : Nat) : Group :=
  advance { g with parked := sinsert seq g.parked, attempts := mdel g.attempts seq }

/-- `group.rs:386-391`: the bookkeeping of a delivery. -/
def hand (g : Group) (consumer : Str) (now seq : Nat) : Group :=
  { g with attempts := mset g.attempts seq (g.attempt seq),
           pending := mset g.pending seq { consumer, at_ := now, count := g.attempt seq } }

/-- `group.rs:377-393` `issue_delivery`. -/
def issue (g : Group) (consumer : Str) (now : Nat) (msg : Msg) : Group × Option Msg :=
  if g.maxDeliveries < g.attempt msg.seq then (park g msg.seq, none)
  else (hand g consumer now msg.seq, some msg)

/-- `group.rs:395-402` `release_seq`. -/
def releaseSeq (g : Group) (seq count : Nat) : Group :=
  if g.maxDeliveries ≤ count then
    { g with parked := sinsert seq g.parked, attempts := mdel g.attempts seq }
  else if g.redeliver.contains seq then g
  else { g with redeliver := g.redeliver ++ [seq] }

/-- `group.rs:179-182` and `410-413`: one message is taken back from its holder. -/
def takeBack (g : Group) (seq : Nat) : Group :=
  match mget g.pending seq with
  | none => g
  | some p => releaseSeq { g with pending := mdel g.pending seq } seq p.count

/-- `group.rs:404-416` `release_consumer`. -/
def releaseConsumer (g : Group) (consumer : Str) (order : List Nat) : Group :=
  advance ((iterOrder order (mkeys (g.pending.filter (fun e => e.2.consumer = consumer)))).foldl takeBack g)

/-- `group.rs:169-172`: the messages whose deadline has passed (`duration_since` is 0 for a later instant). -/
def expired (g : Group) (now : Nat) : List Nat :=
  mkeys (g.pending.filter (fun e => now - e.2.at_ > g.ackWait))

/-- `group.rs:167-187` `check_redelivery`. -/
def checkRedelivery (g : Group) (now : Nat) (order : List Nat) : Group × Bool :=
  if (g.expired now).isEmpty then (g, false)
  else (advance ((iterOrder order (g.expired now)).foldl takeBack g), true)

/-- `group.rs:255-264` `reset_runtime`. -/
def resetRuntime (g : Group) : Group :=
  invalidate { g with pending := [], redeliver := [], parked := [], attempts := [], members := [],
                      fetchingCold := false, gen := g.gen + 1 }

/-- `group.rs:189-193` `seek_beginning`. -/
def seekBeginning (g : Group) (head : Nat) : Group :=
  resetRuntime { g with floor := max head 1 - 1, next := max head 1 }

/-- `group.rs:195-199` `seek_end`. -/
def seekEnd (g : Group) (last : Nat) : Group :=
  resetRuntime { g with floor := last, next := last + 1 }

/-- The state changes of `group.rs:205-240` (line 219 removes some of the `delivery_attempts` that line 237 would
remove as well). -/
def dropBelow (g : Group) (head : Nat) : Group :=
  { g with
    floor := if g.floor < head - 1 then head - 1 else g.floor
    next := if g.next < head then head else g.next
    pending := g.pending.filter (fun e => !decide (e.1 < head))
    redeliver := g.redeliver.filter (fun s => decide (head ≤ s))
    parked := g.parked.filter (fun s => decide (head ≤ s))
    attempts := g.attempts.filter (fun e => decide (head ≤ e.1)) }

/-- `changed` of `group.rs:203-240`.  (The length of `delivery_attempts` is compared after the stale pending
messages have been dropped; in that case `changed` is already set.) -/
def belowChanges (g : Group) (head : Nat) : Bool :=
  decide (g.floor < head - 1) || decide (g.next < head)
    || !(g.pending.filter (fun e => decide (e.1 < head))).isEmpty
    || decide ((g.redeliver.filter (fun s => decide (head ≤ s))).length ≠ g.redeliver.length)
    || decide ((g.parked.filter (fun s => decide (head ≤ s))).length ≠ g.parked.length)
    || decide ((g.attempts.filter (fun e => decide (head ≤ e.1))).length ≠ g.attempts.length)

/-- `group.rs:201-249` `clamp_head`. -/
def clampHead (g : Group) (head : Nat) : Group × Bool :=
  if g.belowChanges (max head 1) then
    (invalidate (advance { g.dropBelow (max head 1) with fetchingCold := false }), true)
  else (g.dropBelow (max head 1), false)

/-- `group.rs:251-253` `next_fetch_seq`. -/
def nextFetchSeq (g : Group) (head : Nat) : Nat := max (g.redeliver.head?.getD g.next) (max head 1)

/-- `group.rs:278-284` `add_member`; the new consumer id is an input. -/
def addMember (g : Group) (consumer conn : Str) : Group := { g with members := mset g.members consumer conn }

/-- `group.rs:286-293` `remove_member`; `order`: iteration order of `pending`. -/
def removeMember (g : Group) (consumer : Str) (order : List Nat) : Group × Option Str :=
  match mget g.members consumer with
  | none => (g, none)
  | some conn => (invalidate (releaseConsumer { g with members := mdel g.members consumer } consumer order), some conn)

/-- The parameters of one delivery loop: who asks, when, and the window of the log in memory. -/
structure Ask where
  consumer : Str
  now : Nat
  log : List Msg
  ramStart : Nat
  head : Nat

/-- The first loop of `fetch`, `group.rs:105-126`, over the redelivery queue `q` (= `g.redeliver` at the start of each
round). -/
def redeliverLoop (a : Ask) (budget : Nat) : List Nat → Group → List Msg → Group × List Msg
  | [], g, acc => (g, acc)
  | s :: q, g, acc =>
    if acc.length < budget then
      if s < a.head then
        redeliverLoop a budget q
          { g with redeliver := q, attempts := mdel g.attempts s, parked := sremove s g.parked } acc
      else
        match readFromLog a.log a.ramStart s with
        | none => (g, acc)
        | some msg =>
          redeliverLoop a budget q (issue { g with redeliver := q } a.consumer a.now msg).1
            (acc ++ (issue { g with redeliver := q } a.consumer a.now msg).2.toList)
    else (g, acc)

/-- `group.rs:130-134`: the start of a round of the second loop. -/
def skipRemoved (g : Group) (head : Nat) : Group :=
  if g.next < head then { g with next := head, floor := max g.floor (head - 1) } else g

/-- The second loop of `fetch`, `group.rs:128-144`, at most `n` rounds. -/
def freshLoop (a : Ask) (budget : Nat) : Nat → Group → List Msg → Group × List Msg
  | 0, g, acc => (g, acc)
  | n + 1, g, acc =>
    if acc.length < budget then
      match readFromLog a.log a.ramStart (max g.next a.head) with
      | none => (skipRemoved g a.head, acc)
      | some msg =>
        freshLoop a budget n (issue { skipRemoved g a.head with next := max g.next a.head + 1 } a.consumer a.now msg).1
          (acc ++ (issue { skipRemoved g a.head with next := max g.next a.head + 1 } a.consumer a.now msg).2.toList)
    else (g, acc)

/-- `group.rs:98-146`, after the checks.  Every round of the second loop reads a later position of the log, so
`log.length + 1` rounds are enough. -/
def deliver (g : Group) (a : Ask) (limit : Nat) : Group × List Msg :=
  if g.maxPending ≤ g.pending.length then (g, [])
  else
    freshLoop a (min limit (g.maxPending - g.pending.length)) (a.log.length + 1)
      (redeliverLoop a (min limit (g.maxPending - g.pending.length)) g.redeliver g []).1
      (redeliverLoop a (min limit (g.maxPending - g.pending.length)) g.redeliver g []).2

/-- `group.rs:94-147` `fetch`. -/
def fetch (g : Group) (a : Ask) (gen limit : Nat) : Group × Except GErr (List Msg) :=
  match g.inactive a.consumer gen with
  | some e => (g, .error e)
  | none =>
    ((deliver (g.clampHead a.head).1 a limit).1, .ok (deliver (g.clampHead a.head).1 a limit).2)

/-- `group.rs:150-164` `ack`. -/
def ack (g : Group) (consumer : Str) (gen seq : Nat) : Group × Option GErr :=
  match g.inactive consumer gen with
  | some e => (g, some e)
  | none =>
    match mget g.pending seq with
    | none => (g, some .notPending)
    | some p =>
      if p.consumer = consumer then
        (advance { g with pending := mdel g.pending seq, attempts := mdel g.attempts seq,
                          parked := sremove seq g.parked }, none)
      else (g, some .notOwner)

/-- `group.rs:329-338`: the state in which a message read from disk is issued, if it is. -/
def coldReady (g : Group) (head seq : Nat) : Group :=
  if seq = max g.next (max head 1) then { skipRemoved g head with next := seq + 1 } else skipRemoved g head

/-- The loop of `register_cold_messages`, `group.rs:312-345`. -/
def coldLoop (consumer : Str) (now head : Nat) : List Msg → Group → List Msg → Group × List Msg
  | [], g, acc => (g, acc)
  | m :: ms, g, acc =>
    if g.maxPending ≤ g.pending.length then (g, acc)
    else if m.seq < head then coldLoop consumer now head ms g acc
    else if g.redeliver.contains m.seq || m.seq = max g.next (max head 1) then
      coldLoop consumer now head ms
        (issue (coldReady { g with redeliver := g.redeliver.erase m.seq } head m.seq) consumer now m).1
        (acc ++ (issue (coldReady { g with redeliver := g.redeliver.erase m.seq } head m.seq) consumer now m).2.toList)
    else coldLoop consumer now head ms (coldReady g head m.seq) acc

/-- `group.rs:306-348` `register_cold_messages`. -/
def registerCold (g : Group) (consumer : Str) (now gen : Nat) (msgs : List Msg) (head : Nat) :
    Group × Except GErr (List Msg) :=
  match g.inactive consumer gen with
  | some e => (g, .error e)
  | none =>
    ((coldLoop consumer now head msgs (g.clampHead head).1 []).1,
      .ok (coldLoop consumer now head msgs (g.clampHead head).1 []).2)

end Group
end Verif.Stream
