import Verif.Model.QueueStore
import Verif.Model.SdkQueue

/-!
# Consumers, network and queue together

Any number of subscribed clients (`Verif.Sdk.QueueLoop`, `/repo/sdk/ts/src/brokers/queue.ts:231-314`) and one queue
with its storage (`Verif.Queue.Sys`), joined by the commands of `queue.ts:49-79` (`consume`, `ack`, `nack`) and the
server's handler for them (`/repo/src/brokers/queue/tcp.rs`).

Simplifications.  What is on its way between a client and the server is a list, and any element of it may arrive next
or be lost: this covers every interleaving of the clients' sockets, the worker tasks of the server and broken
connections, and a few orders more than the code can produce.  A batch of messages is known to the client by the
numbers of the deliveries (`deliveries` records what the server handed out under each number); decoding a payload is
the subject of `Verif.Model.Wire`.  A long-polling consume that finds nothing and goes on waiting changes nothing and is
not an event.  Requests execute one after the other (see `Verif.Model.QueueRace`).
-/

namespace Verif.QueueE2E

open Verif.Queue (Id Msg Config Sys Op)
open Verif.Sdk.QueueLoop (Loop Ev)

/-- The requests a consumer sends (`queue.ts:49-79`). -/
inductive Request where
  /-- request number `no` of client `k` -/
  | consume (k no : Nat)
  | ack (id : Id)
  | nack (id : Id) (reason : Str)
  deriving DecidableEq, Repr

/-- The answer to consume request `no` of client `k`: the deliveries it carries. -/
structure Answer where
  k : Nat
  no : Nat
  msgs : List Nat
  deriving DecidableEq, Repr

/-- A subscribed client: the loop, and the number of the request whose answer it waits for (`connection.ts`, the map
of pending requests). -/
structure Client where
  loop : Loop := {}
  waiting : Option Nat := none
  deriving DecidableEq, Repr

/-- The options of the subscriptions (`queue.ts:241-243`). -/
structure Options where
  concurrency : Nat → Nat
  batchSize : Nat → Nat

structure Net where
  server : Sys
  clients : Nat → Client
  /-- on their way to the server -/
  requests : List Request
  /-- on their way to the clients -/
  answers : List Answer
  /-- what the server handed out to the clients, by number -/
  deliveries : List Msg
  /-- the number of the next consume request -/
  nextNo : Nat

def Net.new (cfg : Config) : Net :=
  { server := Sys.new cfg, clients := fun _ => {}, requests := [], answers := [], deliveries := [], nextNo := 0 }

inductive Event where
  /-- something happens in the loop of client `k`; `reason` is the text of the error if a callback throws, or
  "Consumer stopped" (`queue.ts:266`, `274-276`) -/
  | client (k : Nat) (e : Ev) (reason : Str)
  /-- the server executes the `i`-th request that is on its way, at time `now` -/
  | exec (i now : Nat)
  /-- the `i`-th request that is on its way is lost -/
  | loseRequest (i : Nat)
  /-- the `i`-th answer that is on its way reaches its client; `ok = false`: it cannot be decoded -/
  | receive (i : Nat) (ok : Bool)
  /-- the `i`-th answer that is on its way is lost -/
  | loseAnswer (i : Nat)
  /-- a request of somebody else, or the server's timer -/
  | op (o : Op)
  /-- the writer commits `n` operations -/
  | commit (n : Nat)
  /-- the server dies and is started again -/
  | restart (now : Nat)
  deriving DecidableEq, Repr

/-- What the client writes to the socket for an output of its loop (`queue.ts:49-79`): an acknowledgement carries the
id of the message that was delivered. -/
def sends (deliveries : List Msg) (k no : Nat) (reason : Str) : Sdk.QueueLoop.Out → List Request
  | .consume => [.consume k no]
  | .ack m => (deliveries[m]?).toList.map (fun x => .ack x.id)
  | .nack m => (deliveries[m]?).toList.map (fun x => .nack x.id reason)
  | _ => []

/-- Function update. -/
def put (f : Nat → Client) (k : Nat) (c : Client) : Nat → Client := fun j => if j = k then c else f j

/-- A client's loop makes a step; a consume request is remembered as the one waited for, and a failed request is no
longer waited for (`connection.ts:56-64`, `116-119`). -/
def clientStep (o : Options) (s : Net) (k : Nat) (e : Ev) (reason : Str) : Net :=
  let c := s.clients k
  let r := Sdk.QueueLoop.step (o.concurrency k) c.loop e
  { s with
    clients := put s.clients k
      { loop := r.1
        waiting := if r.2 = [.consume] then some s.nextNo else if e = .failed then none else c.waiting }
    requests := s.requests ++ r.2.flatMap (sends s.deliveries k s.nextNo reason)
    nextNo := s.nextNo + 1 }

/-- The request of the queue a client's request asks for (`tcp.rs`, `consume`, `ack`, `nack`). -/
def Request.op (o : Options) (now : Nat) : Request → Op
  | .consume k _ => .consume (o.batchSize k) now
  | .ack id => .ack id
  | .nack id reason => .nack id reason now

/-- The messages an answer of the queue carries. -/
def handed : Option Queue.Out → List Msg
  | some (.msgs l) => l
  | _ => []

/-- The server executes a request: a consume is answered with the messages handed out; acknowledgements are sent
without waiting for an answer (`sendFireAndForget`). -/
def execStep (o : Options) (s : Net) (q : Request) (now : Nat) : Net :=
  let r := s.server.step (.op (q.op o now))
  match q with
  | .consume k no =>
    { s with
      server := r.1
      answers := s.answers ++ [{ k, no, msgs := List.range' s.deliveries.length (handed r.2).length }]
      deliveries := s.deliveries ++ handed r.2 }
  | _ => { s with server := r.1 }

/-- An answer reaches its client: it counts only if the client still waits for it (`connection.ts:186-192`). -/
def receiveStep (o : Options) (s : Net) (a : Answer) (ok : Bool) : Net :=
  let c := s.clients a.k
  if c.waiting = some a.no then
    let r := Sdk.QueueLoop.step (o.concurrency a.k) c.loop (if ok then .delivered a.msgs else .failed)
    { s with clients := put s.clients a.k { loop := r.1, waiting := none } }
  else s

def Net.step (o : Options) (s : Net) : Event → Net
  | .client _ (.delivered _) _ => s
  | .client k e reason => clientStep o s k e reason
  | .exec i now =>
    match s.requests[i]? with
    | some q => execStep o { s with requests := s.requests.eraseIdx i } q now
    | none => s
  | .loseRequest i => { s with requests := s.requests.eraseIdx i }
  | .receive i ok =>
    match s.answers[i]? with
    | some a => receiveStep o { s with answers := s.answers.eraseIdx i } a ok
    | none => s
  | .loseAnswer i => { s with answers := s.answers.eraseIdx i }
  | .op x => { s with server := (s.server.step (.op x)).1 }
  | .commit n => { s with server := (s.server.step (.commit n)).1 }
  | .restart now => { s with server := (s.server.step (.restart now)).1 }

def Net.run (o : Options) (s : Net) : List Event → Net
  | [] => s
  | e :: es => (s.step o e).run o es

end Verif.QueueE2E
