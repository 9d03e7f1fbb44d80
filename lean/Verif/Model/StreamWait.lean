import Verif.Model.StreamTopic

/-!
# Model of long-polling fetches

`/repo/src/brokers/stream/manager.rs:224-250` (the loop of `fetch` with `wait_ms != 0`) and the calls of `notify_waiters`
(`172`, `293`, `325-327`, `383-385`, `624-626`, `658-660`), which come after the lock has been released.

`tokio::sync::Notify`: `notified()` records the number of `notify_waiters()` calls so far; the future is ready as soon as
that number has changed.  One notification is therefore one increment of a counter.  In `Model/StreamTopic.lean` a waiting
fetch may try again at any time; here it does so only after it has been notified.
-/

namespace Verif.Stream

open Group

/-- `manager.rs:373-382`: does the loop set `should_notify`? -/
def dropNotifies (order : Str → List Nat) : Topic → List (Str × Str) → Bool
  | _, [] => false
  | t, b :: bs =>
    (match mget t.groups b.1 with
      | none => false
      | some g => (g.removeMember b.2 (order b.1)).2.isSome)
    || dropNotifies order (Topic.dropBinding order t b) bs

/-- Does the step call `notify_waiters` after it has released the lock? -/
def notifies (t : Topic) : Ev → Bool
  | .send i => t.sends[i]?.isSome
  | .leave group consumer gen order =>
    match (t.leave group consumer gen order).2 with
    | .ok => true
    | _ => false
  | .disconnect conn order =>
    match mget t.clients conn with
    | none => false
    | some bs => dropNotifies order { t with clients := mdel t.clients conn } bs
  | .seek _ _ => true
  | .tick now order => t.groups.any (fun e => (e.2.checkRedelivery now (order e.1)).2)
  | .retainDone =>
    match t.retain with
    | .outcome head => decide (head ≠ t.log.head)
    | _ => false
  | _ => false

/-- A topic with its long-polling fetches: `notifying` counts the steps that have not yet called `notify_waiters`;
`snaps` gives for a fetch the value of the counter when its `Notified` was created, and whether it is about to try
(`227-239`) or asleep (`245-249`). -/
structure Polls where
  t : Topic
  counter : Nat
  notifying : Nat
  snaps : List (Nat × (Nat × Bool))

inductive WEv where
  /-- a step of the topic; a long-polling fetch tries only after `listen` -/
  | ev (e : Ev)
  /-- a step that has changed something calls `notify_waiters` -/
  | notify
  /-- `manager.rs:227`: the loop of a long-polling fetch begins, or begins again after a notification -/
  | listen (id : Nat)

namespace Polls

/-- The step of the topic that an event makes, if any. -/
def act (s : Polls) : WEv → Option Ev
  | .ev (.attempt id now) =>
    match mget s.t.fetches id with
    | none => none
    | some op =>
      if op.poll then
        match mget s.snaps id with
        | some (_, true) => some (.attempt id now)
        | _ => none
      else some (.attempt id now)
  | .ev e => some e
  | _ => none

/-- A fetch that tries is asleep after that (or over). -/
def sleep (snaps : List (Nat × (Nat × Bool))) : Ev → List (Nat × (Nat × Bool))
  | .attempt id _ => mupd snaps id (fun x => (x.1, false))
  | _ => snaps

def step (crc : Bytes → Nat) (s : Polls) (w : WEv) : Polls :=
  match w with
  | .notify => if s.notifying = 0 then s else { s with counter := s.counter + 1, notifying := s.notifying - 1 }
  | .listen id =>
    match mget s.t.fetches id with
    | none => s
    | some op =>
      if op.poll then
        match op.phase, mget s.snaps id with
        | .ready, none => { s with snaps := mset s.snaps id (s.counter, true) }
        | .waiting, some (n, false) =>
          if n ≠ s.counter then { s with snaps := mset s.snaps id (s.counter, true) } else s
        | _, _ => s
      else s
  | .ev _ =>
    match s.act w with
    | none => s
    | some e =>
      { s with t := (s.t.step crc e).1
               notifying := s.notifying + (if notifies s.t e then 1 else 0)
               snaps := sleep s.snaps e }

def run (crc : Bytes → Nat) (s : Polls) : List WEv → Polls
  | [] => s
  | w :: ws => Polls.run crc (s.step crc w) ws

/-- The steps of the topic in a schedule. -/
def acts (crc : Bytes → Nat) (s : Polls) : List WEv → List Ev
  | [] => []
  | w :: ws => (s.act w).toList ++ Polls.acts crc (s.step crc w) ws

/-- At the start of the server nobody waits. -/
def start (t : Topic) : Polls := { t, counter := 0, notifying := 0, snaps := [] }

end Polls

end Verif.Stream
