import Verif.Base.AMap

/-!
# Model of the client library's queue consumer

`/repo/sdk/ts/src/brokers/queue.ts:231-314` `subscribe` and `/repo/sdk/ts/src/utils/concurrent.ts` `runConcurrent`.
JavaScript runs one callback at a time; an event below is what runs between two waits.  A message is known by the number of
its delivery.  `up` is `conn.isConnected` at that moment; `sendFireAndForget` writes nothing when it is false
(`connection.ts:259`).

Simplifications: the existence check at the start and the guard against a second subscription are left out (an instance
of this model is one running loop; they are in `Model/SdkHandles.lean`); decoding a batch either gives the messages (`delivered`) or throws (`failed`);
`concurrency` is a whole number (a negative one is 0).
-/

namespace Verif.Sdk.QueueLoop

/-- What the loop does that can be seen from outside. -/
inductive Out where
  /-- a consume request is sent -/
  | consume
  /-- the user's callback is called with a message -/
  | call (m : Nat)
  /-- an acknowledgement is sent -/
  | ack (m : Nat)
  /-- a negative acknowledgement is sent -/
  | nack (m : Nat)
  /-- the promise of `stop()` is resolved -/
  | finished
  deriving DecidableEq, Repr

/-- Where the loop is. -/
inductive Phase where
  /-- at the head of the loop (`queue.ts:248`) -/
  | head
  /-- waiting for the answer of a consume request (`258`) -/
  | polling
  /-- in `runConcurrent` (`262`): the messages no worker has taken, those whose callback runs, the workers between two messages -/
  | batch (todo running : List Nat) (free : Nat)
  /-- sleeping (`250`, `284`, `288`) -/
  | backoff
  /-- the loop has ended (`291`) -/
  | finished
  deriving DecidableEq, Repr

structure Loop where
  active : Bool := true
  phase : Phase := .head
  deriving DecidableEq, Repr

inductive Ev where
  /-- the loop goes round -/
  | poll (up : Bool)
  /-- the consume request is answered with these messages -/
  | delivered (ms : List Nat)
  /-- the consume request fails -/
  | failed
  /-- a sleep ends -/
  | wake
  /-- a worker that is between two messages goes on -/
  | take (up : Bool)
  /-- the callback of a message returns or throws -/
  | returned (m : Nat) (ok up : Bool)
  /-- `stop()` -/
  | stop
  deriving DecidableEq, Repr

/-- `concurrent.ts:17`, `22`: the number of workers. -/
def workers (concurrency n : Nat) : Nat := if concurrency ≤ 1 then 1 else min concurrency n

def step (concurrency : Nat) (s : Loop) : Ev → Loop × List Out
  | .poll up =>
    -- `queue.ts:248-258`, `291`
    match s.phase with
    | .head =>
      if !s.active then ({ s with phase := .finished }, [.finished])
      else if !up then ({ s with phase := .backoff }, [])
      else ({ s with phase := .polling }, [.consume])
    | _ => (s, [])
  | .delivered ms =>
    -- `queue.ts:260-262`, `concurrent.ts:16-24`
    match s.phase with
    | .polling => ({ s with phase := if ms = [] then .head else .batch ms [] (workers concurrency ms.length) }, [])
    | _ => (s, [])
  | .failed =>
    -- `queue.ts:280-289`
    match s.phase with
    | .polling => if !s.active then ({ s with phase := .finished }, [.finished]) else ({ s with phase := .backoff }, [])
    | _ => (s, [])
  | .wake =>
    match s.phase with
    | .backoff => ({ s with phase := .head }, [])
    | _ => (s, [])
  | .take up =>
    -- `concurrent.ts:18`, `25-27`, `queue.ts:263-270`
    match s.phase with
    | .batch (m :: todo) running (free + 1) =>
      if s.active then ({ s with phase := .batch todo (running ++ [m]) free }, [.call m])
      else ({ s with phase := .batch todo running (free + 1) }, if up then [.nack m] else [])
    | .batch [] running (free + 1) =>
      ({ s with phase := if running = [] ∧ free = 0 then .head else .batch [] running free }, [])
    | _ => (s, [])
  | .returned m ok up =>
    -- `queue.ts:270-277`
    match s.phase with
    | .batch todo running free =>
      if m ∈ running then
        ({ s with phase := .batch todo (running.erase m) (free + 1) },
          if up then (if ok then [.ack m] else [.nack m]) else [])
      else (s, [])
    | _ => (s, [])
  | .stop => ({ s with active := false }, [])

def run (concurrency : Nat) (s : Loop) : List Ev → Loop
  | [] => s
  | e :: es => run concurrency (step concurrency s e).1 es

def outs (concurrency : Nat) (s : Loop) : List Ev → List Out
  | [] => []
  | e :: es => (step concurrency s e).2 ++ outs concurrency (step concurrency s e).1 es

end Verif.Sdk.QueueLoop
