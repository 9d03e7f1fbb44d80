import Verif.Model.Queue

/-!
# Long-polling consumers

`/repo/src/brokers/queue/manager.rs:373-424` `consume_batch` and the calls of `notify_waiters` (`291`, `360`, `205-207`,
`487`), which come after the lock has been released and the storage operations have been sent.

`tokio::sync::Notify`: `notified()` records the number of `notify_waiters()` calls so far; the future is ready
as soon as that number has changed.  One notification is therefore one increment of a counter.
-/

namespace Verif.Queue

/-- Does the request call `notify_waiters` after releasing the lock? -/
def notifies (q : QInner) : Op → Bool
  | .push .. => true
  | .nack id reason now => (q.state.nack id reason q.cfg.maxRetries now).1.1.isSome
  | .tick now now' =>
    match q.state.nextTimeout with
    | none => false
    | some ts => decide (ts ≤ now) && !(q.state.processExpired q.cfg.maxRetries now').1.1.isEmpty
  | .moveToQueue id => (dlqRemove q.dlq id).1.isSome
  | _ => false

/-- A long-polling consumer: about to try (`manager.rs:401-417`: it holds a `Notified` created when the counter
was `snap`), asleep (`419-422`), or done. -/
inductive Waiter where
  | trying (max snap : Nat)
  | asleep (max snap : Nat)
  | done (got : List Msg)
  deriving DecidableEq, Repr

/-- A queue with its waiters; `notifying` counts the requests that have changed the queue and have not yet
called `notify_waiters`. -/
structure Waits where
  q : QInner
  counter : Nat
  notifying : Nat
  waiters : List Waiter
  deriving DecidableEq, Repr

inductive WEvent where
  /-- a request of somebody else: its critical section -/
  | op (o : Op)
  /-- a request that has changed the queue calls `notify_waiters` -/
  | notify
  /-- a consumer that found nothing enters the loop: `let notified = shared.notify.notified()` -/
  | enter (max : Nat)
  /-- waiter `i` tries to take a batch; `late`: the deadline has passed -/
  | try_ (i now : Nat) (late : Bool)
  /-- waiter `i` is scheduled after its `Notified` became ready, and starts the loop again -/
  | wake (i : Nat)
  /-- the deadline of waiter `i` passes -/
  | timeout (i : Nat)
  deriving DecidableEq, Repr

/-- Is the `Notified` future of a sleeping waiter ready? -/
def Waits.ready (s : Waits) : Waiter → Bool
  | .asleep _ snap => decide (snap ≠ s.counter)
  | _ => false

def Waits.step (s : Waits) : WEvent → Waits
  | .op o =>
    { s with q := (Queue.step s.q o).1, notifying := s.notifying + (if notifies s.q o then 1 else 0) }
  | .notify => if s.notifying = 0 then s else { s with counter := s.counter + 1, notifying := s.notifying - 1 }
  | .enter max => { s with waiters := s.waiters ++ [.trying max s.counter] }
  | .try_ i now late =>
    match s.waiters[i]? with
    | some (.trying max snap) =>
      let r := Queue.step s.q (.consume max now)
      match r.2.1 with
      | .msgs [] => { s with q := r.1, waiters := s.waiters.set i (if late then .done [] else .asleep max snap) }
      | .msgs l => { s with q := r.1, waiters := s.waiters.set i (.done l) }
      | _ => { s with q := r.1, waiters := s.waiters.set i (.done []) }
    | _ => s
  | .wake i =>
    match s.waiters[i]? with
    | some (.asleep max snap) => if snap ≠ s.counter then { s with waiters := s.waiters.set i (.trying max s.counter) } else s
    | _ => s
  | .timeout i =>
    match s.waiters[i]? with
    | some (.asleep _ _) => { s with waiters := s.waiters.set i (.done []) }
    | _ => s

def Waits.run (s : Waits) : List WEvent → Waits
  | [] => s
  | e :: t => Waits.run (s.step e) t

def Waits.new (cfg : Config) : Waits := { q := QInner.empty cfg, counter := 0, notifying := 0, waiters := [] }

/-- The requests in a schedule (the tries of the waiters are `consume`s). -/
def waitIds : List WEvent → List Id
  | [] => []
  | .op (.push id _ _ _) :: t => id :: waitIds t
  | _ :: t => waitIds t

end Verif.Queue
