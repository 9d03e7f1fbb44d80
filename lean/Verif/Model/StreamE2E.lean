import Verif.Model.StreamTopic
import Verif.Model.SdkStream

/-!
# Stream consumers, network and topic together

Any number of subscribed clients of one consumer group (`Verif.Sdk.StreamLoop`,
`/repo/sdk/ts/src/brokers/stream.ts:51-167`) and one topic with its storage (`Verif.Stream.Topic`), joined by the
commands of `stream.ts:82-98`, `130-137`, `155-161` and the server's handler for them
(`/repo/src/brokers/stream/tcp.rs`).

Simplifications.  What is on its way between a client and the server is a list, and any element of it may arrive next
or be lost: this covers every interleaving of the clients' sockets, the worker tasks of the server and broken
connections, and a few orders more than the code can produce.  A client knows a membership by its place in the list of
all memberships given out (`ids`) and a message by the number of its delivery (`deliveries`); decoding a payload is the
subject of `Verif.Model.Wire`.  The first join of `start()` (`stream.ts:71`) is the first round of the loop.  The answers
to leave requests are not used by the client and are left out.
-/

namespace Verif.StreamE2E

open Verif.Stream (Msg Topic GErr)
open Verif.Sdk.StreamLoop (Loop Ev Member)

/-- The requests a consumer sends. -/
inductive Request where
  /-- `stream.ts:95-98`: request number `no` of client `k` -/
  | join (k no : Nat)
  /-- `stream.ts:130-137` -/
  | fetch (k no : Nat) (consumer : Str) (gen : Nat)
  /-- `stream.ts:155-161` -/
  | ack (consumer : Str) (gen seq : Nat)
  /-- `stream.ts:82-87` -/
  | leave (consumer : Str) (gen : Nat)
  deriving DecidableEq, Repr

/-- What an answer carries. -/
inductive Body where
  | joined (c : Member)
  | msgs (ms : List Nat)
  | error (e : GErr)
  deriving DecidableEq, Repr

/-- The answer to request `no` of client `k`. -/
structure Answer where
  k : Nat
  no : Nat
  body : Body
  deriving DecidableEq, Repr

/-- A subscribed client: the loop, and the number of the request whose answer it waits for (`connection.ts`, the map
of pending requests). -/
structure Client where
  loop : Loop := { member := none }
  waiting : Option Nat := none
  deriving DecidableEq, Repr

/-- The group and the options of the subscriptions (`stream.ts:203-219`); `poll` = `waitMs ≠ 0`. -/
structure Options where
  group : Str
  concurrency : Nat → Nat
  batchSize : Nat → Nat
  poll : Nat → Bool

structure Net where
  topic : Topic
  clients : Nat → Client
  /-- on their way to the server -/
  requests : List Request
  /-- on their way to the clients -/
  answers : List Answer
  /-- fetch requests of the clients that the server works on: the server's number, the client, the client's number -/
  working : List (Nat × Nat × Nat)
  /-- the consumer ids given to the clients -/
  ids : List Str
  /-- what the server handed out to the clients, by number -/
  deliveries : List Msg
  /-- the number of the next request -/
  nextNo : Nat

def Net.new (t : Topic) : Net :=
  { topic := t, clients := fun _ => {}, requests := [], answers := [], working := [], ids := [], deliveries := [], nextNo := 0 }

inductive Event where
  /-- something happens in the loop of client `k` -/
  | client (k : Nat) (e : Ev)
  /-- the server executes the `i`-th request that is on its way; it came over connection `conn`; a join gets the
  consumer id `consumer`; a leave releases messages in the order `order` -/
  | exec (i : Nat) (conn consumer : Str) (order : List Nat)
  /-- the `i`-th request that is on its way is lost -/
  | loseRequest (i : Nat)
  /-- the `i`-th answer that is on its way reaches its client; `ok = false`: it cannot be decoded -/
  | receive (i : Nat) (ok : Bool)
  /-- the `i`-th answer that is on its way is lost -/
  | loseAnswer (i : Nat)
  /-- any other step of the server: requests of others, the steps of the fetches it works on, closed connections,
  timers, storage -/
  | server (e : Stream.Ev)

/-- What the client writes to the socket for an output of its loop. -/
def sends (ids : List Str) (deliveries : List Msg) (k no : Nat) : Sdk.StreamLoop.Out → List Request
  | .join => [.join k no]
  | .fetch c => (ids[c.id]?).toList.map (fun x => .fetch k no x c.generation)
  | .ack c m => (ids[c.id]?).toList.flatMap (fun x => (deliveries[m]?).toList.map (fun y => .ack x c.generation y.seq))
  | .leave c => (ids[c.id]?).toList.map (fun x => .leave x c.generation)
  | _ => []

/-- Does the client wait for the answer of this request? -/
def asks : Sdk.StreamLoop.Out → Bool
  | .join => true
  | .fetch _ => true
  | _ => false

/-- Does the client stop waiting for its request? (`connection.ts:56-64`, `116-119`, `186-192`) -/
def settles : Ev → Bool
  | .joined _ => true
  | .joinFailed _ => true
  | .delivered _ => true
  | .fetchFailed _ => true
  | _ => false

/-- Function update. -/
def put (f : Nat → Client) (k : Nat) (c : Client) : Nat → Client := fun j => if j = k then c else f j

/-- A client's loop makes a step. -/
def clientStep (o : Options) (s : Net) (k : Nat) (e : Ev) : Net :=
  let c := s.clients k
  let r := Sdk.StreamLoop.step (o.concurrency k) c.loop e
  { s with
    clients := put s.clients k
      { loop := r.1
        waiting := if r.2.any asks then some s.nextNo else if settles e then none else c.waiting }
    requests := s.requests ++ r.2.flatMap (sends s.ids s.deliveries k s.nextNo)
    nextNo := s.nextNo + 1 }

/-- The step of the topic a client's request asks for (`tcp.rs`, `handle`). -/
def Request.ev (o : Options) (conn consumer : Str) (order : List Nat) : Request → Stream.Ev
  | .join _ _ => .join o.group conn consumer
  | .fetch k _ c gen => .fetch o.group c gen (o.batchSize k) (o.poll k)
  | .ack c gen seq => .ack o.group c gen seq
  | .leave c gen => .leave o.group c gen order

/-- The fetch a step of the server may answer. -/
def fetchOf : Stream.Ev → Option Nat
  | .attempt id _ => some id
  | .giveUp id => some id
  | .finish id _ => some id
  | _ => none

/-- The server answers fetch request `no` of client `k` (`tcp.rs`, `FetchResponse`). -/
def answerFetch (s : Net) (k no : Nat) : Except GErr (List Msg) → Net
  | .ok ms =>
    { s with
      answers := s.answers ++ [{ k, no, body := .msgs (List.range' s.deliveries.length ms.length) }]
      deliveries := s.deliveries ++ ms }
  | .error e => { s with answers := s.answers ++ [{ k, no, body := .error e }] }

variable (crc : Bytes → Nat)

/-- The server makes a step of its own; if that ends a fetch of a client, the answer is sent. -/
def serverStep (s : Net) (e : Stream.Ev) : Net :=
  let r := s.topic.step crc e
  let s1 := { s with topic := r.1 }
  match fetchOf e, r.2 with
  | some id, .fetched _ x =>
    match mget s.working id with
    | some (k, no) => answerFetch { s1 with working := mdel s.working id } k no x
    | none => s1
  | _, _ => s1

/-- The server executes a request. -/
def execStep (o : Options) (s : Net) (q : Request) (conn consumer : Str) (order : List Nat) : Net :=
  let r := s.topic.step crc (q.ev o conn consumer order)
  match q with
  | .join k no =>
    match r.2 with
    | .joined _ c gen =>
      { s with topic := r.1, ids := s.ids ++ [c]
               answers := s.answers ++ [{ k, no, body := .joined { id := s.ids.length, generation := gen } }] }
    | _ => { s with topic := r.1 }
  | .fetch k no _ _ =>
    match r.2 with
    | .fetched _ x => answerFetch { s with topic := r.1 } k no x
    | _ => { s with topic := r.1, working := mset s.working s.topic.nextOp (k, no) }
  | _ => { s with topic := r.1 }

/-- What an answer is for the loop (`stream.ts:42-45`, `109-122`: `FENCED` and `NOT_MEMBER` make it join again at
once). -/
def Body.ev (l : Loop) : Body → Bool → Ev
  | .joined c, true => .joined c
  | .msgs ms, true => .delivered ms
  | .error e, _ => if l.phase = .joining then .joinFailed (e = .fenced ∨ e = .notMember) else .fetchFailed (e = .fenced ∨ e = .notMember)
  | _, false => if l.phase = .joining then .joinFailed false else .fetchFailed false

/-- An answer reaches its client: it counts only if the client still waits for it (`connection.ts:186-192`). -/
def receiveStep (o : Options) (s : Net) (a : Answer) (ok : Bool) : Net :=
  if (s.clients a.k).waiting = some a.no then clientStep o s a.k (a.body.ev (s.clients a.k).loop ok) else s

def Net.step (o : Options) (s : Net) : Event → Net
  | .client _ (.delivered _) => s
  | .client _ (.joined _) => s
  | .client k e => clientStep o s k e
  | .exec i conn consumer order =>
    match s.requests[i]? with
    | some q => execStep crc o { s with requests := s.requests.eraseIdx i } q conn consumer order
    | none => s
  | .loseRequest i => { s with requests := s.requests.eraseIdx i }
  | .receive i ok =>
    match s.answers[i]? with
    | some a => receiveStep o { s with answers := s.answers.eraseIdx i } a ok
    | none => s
  | .loseAnswer i => { s with answers := s.answers.eraseIdx i }
  | .server e => serverStep crc s e

def Net.run (o : Options) (s : Net) : List Event → Net
  | [] => s
  | e :: es => (s.step crc o e).run o es

end Verif.StreamE2E
