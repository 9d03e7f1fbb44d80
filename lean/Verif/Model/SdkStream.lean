import Verif.Model.SdkQueue

/-!
# Model of the client library's stream consumer

`/repo/sdk/ts/src/brokers/stream.ts:51-167` `StreamSubscription`, from the moment `start()` has joined the group.  A message is
known by the number of its delivery.  `up` is `conn.isConnected` at that moment.

Simplifications: decoding a batch either gives the messages (`delivered`) or throws (`fetchFailed`); the kinds of errors are
only whether the loop joins again at once (`FENCED`, `NOT_MEMBER`) or sleeps first; `stop()` ends when the loop has ended
(it also waits for the answer of its own request).
-/

namespace Verif.Sdk.StreamLoop

open QueueLoop (workers)

/-- A membership: the consumer id and the generation that the server gave. -/
structure Member where
  id : Nat
  generation : Nat
  deriving DecidableEq, Repr

inductive Out where
  /-- a join request is sent -/
  | join
  /-- a fetch request is sent -/
  | fetch (c : Member)
  /-- the user's callback is called with a message -/
  | call (m : Nat)
  /-- an acknowledgement is sent -/
  | ack (c : Member) (m : Nat)
  /-- a leave request is sent -/
  | leave (c : Member)
  /-- the loop has ended -/
  | finished
  deriving DecidableEq, Repr

inductive Phase where
  /-- at the head of the loop (`stream.ts:105`) -/
  | head
  /-- waiting for the answer of a join request (`107`) -/
  | joining
  /-- waiting for the answer of a fetch request (`130`) -/
  | polling (c : Member)
  /-- in `runConcurrent` (`151`) -/
  | batch (c : Member) (todo running : List Nat) (free : Nat)
  /-- sleeping (`116`, `121`) -/
  | backoff
  /-- the loop has ended -/
  | finished
  deriving DecidableEq, Repr

/-- `stream.ts:52-55`; `member` is `consumerId` with `generation`. -/
structure Loop where
  active : Bool := true
  member : Option Member
  phase : Phase := .head
  deriving DecidableEq, Repr

inductive Ev where
  /-- the loop goes round -/
  | go (up : Bool)
  /-- the join request is answered -/
  | joined (c : Member)
  /-- the join request fails; does the loop join again at once? -/
  | joinFailed (again : Bool)
  /-- the fetch request is answered with these messages -/
  | delivered (ms : List Nat)
  /-- the fetch request fails; does the loop join again at once? -/
  | fetchFailed (again : Bool)
  /-- a sleep ends -/
  | wake
  /-- a worker that is between two messages goes on -/
  | take
  /-- the callback of a message returns or throws -/
  | returned (m : Nat) (ok up : Bool)
  /-- `stop()` -/
  | stop
  deriving DecidableEq, Repr

/-- `stream.ts:109-122`: an error in the loop. -/
def caught (s : Loop) (again : Bool) : Loop × List Out :=
  if !s.active then ({ s with phase := .finished }, [.finished])
  else if again then ({ s with member := none, phase := .joining }, [.join])
  else ({ s with member := none, phase := .backoff }, [])

def step (concurrency : Nat) (s : Loop) : Ev → Loop × List Out
  | .go up =>
    -- `stream.ts:105-108`, `94`, `130`
    match s.phase with
    | .head =>
      if !s.active then ({ s with phase := .finished }, [.finished])
      else if !up then caught s false
      else match s.member with
        | none => ({ s with phase := .joining }, [.join])
        | some c => ({ s with phase := .polling c }, [.fetch c])
    | _ => (s, [])
  | .joined c =>
    -- `stream.ts:99-101`, `108`, `127-130`
    match s.phase with
    | .joining => ({ s with member := some c, phase := .polling c }, [.fetch c])
    | _ => (s, [])
  | .joinFailed again =>
    match s.phase with
    | .joining => caught s again
    | _ => (s, [])
  | .delivered ms =>
    -- `stream.ts:139-151`
    match s.phase with
    | .polling c => ({ s with phase := if ms = [] then .head else .batch c ms [] (workers concurrency ms.length) }, [])
    | _ => (s, [])
  | .fetchFailed again =>
    match s.phase with
    | .polling _ => caught s again
    | _ => (s, [])
  | .wake =>
    match s.phase with
    | .backoff => ({ s with phase := .head }, [])
    | _ => (s, [])
  | .take =>
    -- `concurrent.ts:18`, `25-27`, `stream.ts:152-154`
    match s.phase with
    | .batch c (m :: todo) running (free + 1) =>
      if s.active then ({ s with phase := .batch c todo (running ++ [m]) free }, [.call m])
      else ({ s with phase := .batch c todo running (free + 1) }, [])
    | .batch c [] running (free + 1) =>
      ({ s with phase := if running = [] ∧ free = 0 then .head else .batch c [] running free }, [])
    | _ => (s, [])
  | .returned m ok up =>
    -- `stream.ts:154-164`
    match s.phase with
    | .batch c todo running free =>
      if m ∈ running then
        ({ s with phase := .batch c todo (running.erase m) (free + 1) }, if up && ok then [.ack c m] else [])
      else (s, [])
    | _ => (s, [])
  | .stop =>
    -- `stream.ts:78-89`
    ({ s with active := false }, match s.member with | some c => [.leave c] | none => [])

def run (concurrency : Nat) (s : Loop) : List Ev → Loop
  | [] => s
  | e :: es => run concurrency (step concurrency s e).1 es

def outs (concurrency : Nat) (s : Loop) : List Ev → List Out
  | [] => []
  | e :: es => (step concurrency s e).2 ++ outs concurrency (step concurrency s e).1 es

end Verif.Sdk.StreamLoop
