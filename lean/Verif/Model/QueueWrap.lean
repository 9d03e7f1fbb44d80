import Verif.Model.QueueStore

/-!
# Model of the queue broker with the arithmetic of a release build

`/repo/src/brokers/queue/domain/queue.rs:395` adds the clock and the visibility timeout as `u64`.  A release build
(`/repo/Cargo.toml:32-35`, no `overflow-checks`) wraps around; a debug build panics.  `Model/Queue.lean` adds natural numbers;
this file is the same broker with the addition that wraps.  `attempts += 1` (`queue.rs:401`) still does not wrap here (2^32 deliveries of
one message).
-/

namespace Verif.Queue

/-- `queue.rs:395` in a release build. -/
def wrapAdd (now vt : Nat) : Nat := (now + vt) % 2 ^ 64

/-- `queue.rs:381-414` `pop_single`.  `QState.popSingle` uses its two numbers only through their sum: the clock reading is used for nothing but `timeout`. -/
def QState.popSingle64 (s : QState) (now vt : Nat) : Option Msg × Bool × QState := s.popSingle 0 (wrapAdd now vt)

/-- `queue.rs:141-158` `take_batch`. -/
def QState.takeBatch64 (now vt max : Nat) (s : QState) : List Msg × Bool × QState := s.takeBatch 0 (wrapAdd now vt) max

/-- One request; see `step`. -/
def step64 (q : QInner) : Op → QInner × Out × List StorageOp
  | .pop now =>
    match q.state.popSingle64 now q.cfg.visibilityTimeout with
    | (some m, _, s) => ({ q with state := s }, .msgs [m], [.updateState m.id m.visibleAt m.attempts])
    | (none, _, s) => ({ q with state := s }, .msgs [], [])
  | .consume max now =>
    if max * msgSize > isizeMax then (q, .panicked, [])
    else
      let r := q.state.takeBatch64 now q.cfg.visibilityTimeout max
      ({ q with state := r.2.2 }, .msgs r.1, r.1.map (fun m => .updateState m.id m.visibleAt m.attempts))
  | op => step q op

/-- A history of requests. -/
def run64 (q : QInner) : List Op → QInner × List Out
  | [] => (q, [])
  | op :: t =>
    let r := step64 q op
    let r' := run64 r.1 t
    (r'.1, r.2.1 :: r'.2)

/-- One event; see `Sys.step`. -/
def Sys.step64 (s : Sys) : Event → Sys × Option Out
  | .op o =>
    let r := Queue.step64 s.q o
    ({ s with q := r.1, pending := s.pending ++ r.2.2 }, some r.2.1)
  | e => s.step e

/-- A history of events. -/
def Sys.run64 (s : Sys) : List Event → Sys × List (Option Out)
  | [] => (s, [])
  | e :: t =>
    let r := s.step64 e
    let r' := Sys.run64 r.1 t
    (r'.1, r.2 :: r'.2)

end Verif.Queue
