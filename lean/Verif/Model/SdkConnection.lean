import Verif.Base.AMap
import Verif.Model.Command

/-!
# Model of the client library's connection

`/repo/sdk/ts/src/connection.ts`.  JavaScript runs one callback at a time, so every event below is atomic.  The promise that
a call of `send` returns is known by a number (`tag`); what it is settled with is an output of the step.
`connect` is called once, by `NexoClient.connect` (`client.ts:43-47`).

Simplifications: the bytes of requests and the reassembly of frames are those of `Model/Wire.lean` and `Model/Command.lean`;
here a response is an event.  A socket that is destroyed while it connects emits `close` only, so the promise of
`createSocketAndConnect` is never settled (Node.js).
-/

namespace Verif.Sdk

open Verif Verif.Wire

/-- What the promise of a request is settled with. -/
inductive Outcome where
  /-- a response frame: its status byte and its payload (`connection.ts:230-242`; status 1 rejects with the text) -/
  | answer (status : UInt8) (data : Bytes)
  /-- `NotConnectedError` -/
  | notConnected
  /-- `ConnectionClosedError` -/
  | closed
  /-- `RequestTimeoutError` -/
  | timeout
  /-- `send` has thrown because the id does not fit its field (`codec.ts:174`) -/
  | threw
  deriving DecidableEq, Repr

/-- An entry of `pending` (`connection.ts:14-19`). -/
structure Pend where
  tag : Nat
  deadline : Nat
  deriving DecidableEq, Repr

/-- The state of `this.socket`. -/
inductive Sock where
  | closed
  | connecting
  | opened
  deriving DecidableEq, Repr

/-- `connection.ts:10-46`; the socket and its listeners are `socket`. -/
structure Client where
  /-- `connect` has been called -/
  begun : Bool := false
  connected : Bool := false
  shouldReconnect : Bool := true
  reconnecting : Bool := false
  sweeping : Bool := false
  nextId : Int := 1
  pending : List (Int × Pend) := []
  socket : Sock := .closed
  /-- reconnect loops that wait for their timer (`connection.ts:137`) -/
  asleep : Nat := 0
  /-- reconnect loops that wait for `createSocketAndConnect` (`connection.ts:140`) -/
  dialing : Nat := 0
  deriving DecidableEq, Repr

/-- What happens to a client. -/
inductive CEv where
  /-- `connect` -/
  | connect
  /-- the socket has connected -/
  | opened
  /-- the socket could not connect: `error`, then `close` -/
  | refused
  /-- an open socket closes -/
  | lost
  /-- the timer of a reconnect loop -/
  | timer
  /-- `send` -/
  | send (tag timeoutMs now : Nat)
  /-- `sendFireAndForget` -/
  | fire
  /-- a response frame -/
  | response (id : Nat) (status : UInt8) (data : Bytes)
  /-- the sweep timer -/
  | sweep (now : Nat)
  /-- `disconnect` -/
  | disconnect
  deriving DecidableEq, Repr

namespace Client

/-- `connection.ts:108-129` `cleanup`, the listener of `close`; the loop it starts is `132-137`. -/
def cleanup (c : Client) : Client × List (Nat × Outcome) :=
  let c1 := { c with connected := false, pending := [], socket := .closed }
  (if c.shouldReconnect && !c.reconnecting then { c1 with reconnecting := true, asleep := c.asleep + 1 } else c1,
   c.pending.map (fun e => (e.2.tag, .closed)))

/-- One event: the client after it and the promises it settles. -/
def step (c : Client) : CEv → Client × List (Nat × Outcome)
  | .connect =>
    -- `connection.ts:48-52`, `75-100`
    if c.begun then (c, []) else ({ c with begun := true, shouldReconnect := true, sweeping := true, socket := .connecting }, [])
  | .opened =>
    -- `connection.ts:94-97`, and `141-143`, `136` in a reconnect loop
    match c.socket with
    | .connecting =>
      if 0 < c.dialing then
        ({ c with socket := .opened, connected := true, dialing := c.dialing - 1, reconnecting := false }, [])
      else ({ c with socket := .opened, connected := true }, [])
    | _ => (c, [])
  | .refused =>
    -- `connection.ts:98`, `129`, and `144`, `136` in a reconnect loop
    match c.socket with
    | .connecting =>
      if 0 < c.dialing then
        let c1 := c.cleanup.1
        ({ c1 with dialing := c1.dialing - 1
                   asleep := if c1.shouldReconnect && !c1.connected then c1.asleep + 1 else c1.asleep }, c.cleanup.2)
      else c.cleanup
    | _ => (c, [])
  | .lost =>
    -- `connection.ts:129`
    match c.socket with
    | .opened => c.cleanup
    | _ => (c, [])
  | .timer =>
    -- `connection.ts:137-140`, `75-100`; nothing is looked at before the socket is made
    if 0 < c.asleep then ({ c with asleep := c.asleep - 1, dialing := c.dialing + 1, socket := .connecting }, []) else (c, [])
  | .send tag timeoutMs now =>
    -- `connection.ts:215-249`
    let c1 := { c with nextId := tsNextId c.nextId }
    if !tsIdOk c.nextId then (c1, [(tag, .threw)])
    else if !c.connected then (c1, [(tag, .notConnected)])
    else ({ c1 with pending := mset c.pending c.nextId { tag, deadline := now + timeoutMs } }, [])
  | .fire =>
    -- `connection.ts:259-267`
    if c.connected then ({ c with nextId := tsNextId c.nextId }, []) else (c, [])
  | .response id status data =>
    -- `connection.ts:187-195`
    match c.socket with
    | .opened =>
      match mget c.pending (id : Int) with
      | some p => ({ c with pending := mdel c.pending (id : Int) }, [(p.tag, .answer status data)])
      | none => (c, [])
    | _ => (c, [])
  | .sweep now =>
    -- `connection.ts:56-64`
    if c.sweeping then
      ({ c with pending := c.pending.filter (fun e => !decide (e.2.deadline < now)) },
       (c.pending.filter (fun e => decide (e.2.deadline < now))).map (fun e => (e.2.tag, .timeout)))
    else (c, [])
  | .disconnect =>
    -- `connection.ts:271-276`; the `close` that follows finds nothing to do
    ({ c with shouldReconnect := false, reconnecting := false, sweeping := false, pending := [], socket := .closed
              connected := false, dialing := 0 }, [])

/-- The id in the request frame that an event writes on the socket (`connection.ts:220`, `248`, `266-267`). -/
def wrote (c : Client) : CEv → Option Int
  | .send _ _ _ => if tsIdOk c.nextId && c.connected then some c.nextId else none
  | .fire => if tsIdOk c.nextId && c.connected then some c.nextId else none
  | _ => none

/-- A history of events. -/
def run (c : Client) : List CEv → Client
  | [] => c
  | e :: es => Client.run (c.step e).1 es

/-- What the requests are settled with in a history. -/
def outcomes (c : Client) : List CEv → List (Nat × Outcome)
  | [] => []
  | e :: es => (c.step e).2 ++ Client.outcomes (c.step e).1 es

end Client

end Verif.Sdk
