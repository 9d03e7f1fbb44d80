import Verif.Model.SdkPubSub

/-!
# Model of the client library's subscriptions and their connection

`/repo/sdk/ts/src/brokers/pubsub.ts:38-91` with the subscriptions that the server keeps for the connection.  Each request is
handled by a task of its own (`/repo/src/transport/tcp/connection.rs:57-78`), so the requests of a connection can be handled
and answered in any order; SUB and UNSUB always succeed (`/repo/src/brokers/pub-sub/tcp.rs:81-88`).  When the connection ends the
server forgets the subscriptions (`/repo/src/brokers/pub-sub/manager.rs:112-120` `disconnect`).

Simplifications: a call that is made while the client is not connected fails at once (`connection.ts:225-227`); the callbacks
are not part of the state (one per topic, `SdkPubSub.lean`).
-/

namespace Verif.PubSub.Sdk

/-- Requests that concern subscriptions. -/
inductive Kind where
  /-- sent by `subscribe` (`pubsub.ts:77`) -/
  | sub
  /-- sent when the connection is made again (`pubsub.ts:49-51`) -/
  | resub
  /-- sent by `unsubscribe` (`pubsub.ts:88`) -/
  | unsub
  deriving DecidableEq, Repr

structure Req where
  id : Nat
  kind : Kind
  topic : Str
  deriving DecidableEq, Repr

structure Link where
  client : Client := {}
  up : Bool := true
  nextId : Nat := 0
  /-- requests on their way to the server -/
  toServer : List Req := []
  /-- answers on their way to the client -/
  toClient : List Req := []
  /-- requests whose caller has been told that they timed out -/
  late : List Nat := []
  /-- what the server keeps for this connection -/
  subs : List Str := []
  deriving DecidableEq, Repr

inductive LEv where
  /-- `subscribe` is called -/
  | subscribe (topic : Str)
  /-- `unsubscribe` is called -/
  | unsubscribe (topic : Str)
  /-- the server handles one of the requests -/
  | serve (i : Nat)
  /-- one of the answers reaches the client -/
  | answer (i : Nat)
  /-- a request times out -/
  | timeout (id : Nat)
  /-- the connection is lost -/
  | lost
  /-- the connection is made again -/
  | reconnect
  deriving DecidableEq, Repr

/-- The topics with a callback, in the order in which they are sent again (`pubsub.ts:46`). -/
def Client.topics (c : Client) : List Str := c.exact ++ c.wild

/-- What the server does with a request. -/
def serveSub (subs : List Str) (r : Req) : List Str :=
  match r.kind with
  | .unsub => setRemove r.topic subs
  | _ => setInsert r.topic subs

/-- The request fails: the callback of a `subscribe` that failed is forgotten (`pubsub.ts:78-82`). -/
def failed (c : Client) (r : Req) : Client :=
  match r.kind with
  | .sub => c.unsubscribe r.topic
  | _ => c

/-- A list of topics sent again, with consecutive ids. -/
def resend (first : Nat) : List Str → List Req
  | [] => []
  | t :: ts => { id := first, kind := .resub, topic := t } :: resend (first + 1) ts

def Link.step (l : Link) : LEv → Link
  | .subscribe t =>
    -- `pubsub.ts:64-77`
    if t ∈ l.client.topics then l
    else if l.up then
      { l with client := l.client.subscribe t, nextId := l.nextId + 1
               toServer := l.toServer ++ [{ id := l.nextId, kind := .sub, topic := t }] }
    else l
  | .unsubscribe t =>
    -- `pubsub.ts:85-88`
    if t ∈ l.client.topics ∧ l.up = true then
      { l with nextId := l.nextId + 1, toServer := l.toServer ++ [{ id := l.nextId, kind := .unsub, topic := t }] }
    else l
  | .serve i =>
    match l.toServer[i]? with
    | none => l
    | some r => { l with toServer := l.toServer.eraseIdx i, toClient := l.toClient ++ [r], subs := serveSub l.subs r }
  | .answer i =>
    -- `pubsub.ts:89-90`; an answer to a request that has timed out is dropped (`connection.ts:188-189`)
    match l.toClient[i]? with
    | none => l
    | some r =>
      let l := { l with toClient := l.toClient.eraseIdx i }
      if r.id ∈ l.late then l
      else match r.kind with
        | .unsub => { l with client := l.client.unsubscribe r.topic }
        | _ => l
  | .timeout id =>
    match (l.toServer ++ l.toClient).find? (fun r => r.id == id && !l.late.contains r.id) with
    | some r => { l with late := r.id :: l.late, client := failed l.client r }
    | none => l
  | .lost =>
    -- `connection.ts:116-119`: every outstanding request is rejected
    { l with up := false, toServer := [], toClient := [], subs := []
             client := ((l.toServer ++ l.toClient).filter (fun r => !l.late.contains r.id)).foldl failed l.client }
  | .reconnect =>
    -- `pubsub.ts:45-51`
    if l.up then l
    else { l with up := true, toServer := resend l.nextId l.client.topics, nextId := l.nextId + l.client.topics.length }

def Link.run (l : Link) : List LEv → Link
  | [] => l
  | e :: es => Link.run (l.step e) es

end Verif.PubSub.Sdk
