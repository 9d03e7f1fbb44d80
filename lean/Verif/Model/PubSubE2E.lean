import Verif.Model.SdkSubs

/-!
# Model of a subscriber, the network and the publish/subscribe broker together

One client of the library (`Model/SdkSubs.lean`, `Model/SdkPubSub.lean`), its connection, and the broker (`Model/PubSub.lean`),
which serves any number of other clients as well.

* The requests of the client are handled in any order, and answered in any order (`/repo/src/transport/tcp/connection.rs:57-78`).
* The messages the broker sends to the connection stay in order all the way: the unbounded channel and the bridge
  (`connection.rs:38-52`), the outbound channel and the socket (`131-137`), and `handleFrame` in the client
  (`/repo/sdk/ts/src/connection.ts:177-192`), which calls `dispatch` (`/repo/sdk/ts/src/brokers/pubsub.ts:43`, `93-107`).  They can
  overtake answers and be overtaken by them.
* When the client notices that its connection is lost, what was on its way on that connection is lost for it.  The server
  notices earlier or later, on its own.

Simplifications: the broker handles each request at once (`Model/PubSubRace.lean` has the requests overlap); callbacks are
identified with the pattern they were registered for; a payload that the client cannot decode is not treated.
-/

namespace Verif.PubSub.E2E

open Verif.PubSub Verif.PubSub.Sdk

/-- A message on its way to the client.  `greeting`: it was sent because of a subscription (`manager.rs:134-141`), not
because of a publish; the client cannot tell. -/
structure Push where
  msg : Msg
  greeting : Bool
  deriving DecidableEq, Repr

structure Net where
  server : State
  /-- the client's connection as the server knows it (`connection.rs:24`), while the client considers it up -/
  conn : Option Cid
  link : Link := {}
  /-- on their way to the client -/
  pushes : List Push := []
  /-- the callbacks called so far, by pattern (`pubsub.ts:93-107`) -/
  calls : List (Str × Push) := []
  /-- what the server has done so far (for stating properties only) -/
  done : List Op := []

inductive NEv where
  /-- the application calls `subscribe` -/
  | subscribe (topic : Str)
  /-- the application calls `unsubscribe` -/
  | unsubscribe (topic : Str)
  /-- the server handles the `i`-th request of the client; `order` as in `PubSub.Op.subscribe` -/
  | serve (i : Nat) (order : List Msg) (now : Nat)
  /-- the `i`-th answer reaches the client -/
  | answer (i : Nat)
  /-- a request of the client times out -/
  | timeout (id : Nat)
  /-- the client notices that the connection is lost -/
  | lost
  /-- the client connects again; the server knows the new connection as `c` -/
  | reconnect (c : Cid)
  /-- anything else the server does: other clients, publishes, the end of a connection, background work -/
  | other (op : Op)
  /-- the next message reaches the client -/
  | arrive
  deriving DecidableEq, Repr

/-- What of the messages sent goes to this connection, in order. -/
def toConn (conn : Option Cid) (sent : List (Cid × Msg)) : List Msg :=
  sent.filterMap (fun e => if conn = some e.1 then some e.2 else none)

/-- Messages sent in answer to a SUB are greetings. -/
def isSubscribe : Op → Bool
  | .subscribe .. => true
  | _ => false

/-- The server performs an operation. -/
def Net.exec (dflt : Nat) (n : Net) (op : Op) : Net :=
  { n with
    server := (step dflt n.server op).1
    done := n.done ++ [op]
    pushes := n.pushes ++ (toConn n.conn (step dflt n.server op).2.sent).map (fun m => ⟨m, isSubscribe op⟩) }

/-- `pub-sub/tcp.rs:81-88`: what the server does with a request of the connection. -/
def opOf (c : Cid) (r : Sdk.Req) (order : List Msg) (now : Nat) : Op :=
  match r.kind with
  | .unsub => .unsubscribe c r.topic
  | _ => .subscribe c r.topic order now

/-- Only a client itself makes requests on its connection. -/
def requestOf : Op → Option Cid
  | .subscribe c _ _ _ => some c
  | .unsubscribe c _ => some c
  | _ => none

def Net.step (dflt : Nat) (n : Net) : NEv → Net
  | .subscribe t => { n with link := n.link.step (.subscribe t) }
  | .unsubscribe t => { n with link := n.link.step (.unsubscribe t) }
  | .answer i => { n with link := n.link.step (.answer i) }
  | .timeout id => { n with link := n.link.step (.timeout id) }
  | .serve i order now =>
    match n.conn, n.link.toServer[i]? with
    | some c, some r => ({ n with link := n.link.step (.serve i) } : Net).exec dflt (opOf c r order now)
    | _, _ => { n with link := n.link.step (.serve i) }
  | .lost => { n with link := n.link.step .lost, conn := none, pushes := [] }
  | .reconnect c =>
    if n.link.up then n
    else ({ n with link := n.link.step .reconnect, conn := some c } : Net).exec dflt (.connect c)
  | .other op => if n.conn.isSome ∧ requestOf op = n.conn then n else n.exec dflt op
  | .arrive =>
    match n.pushes with
    | [] => n
    | x :: rest => { n with pushes := rest, calls := n.calls ++ (n.link.client.dispatch x.msg.topic).map (fun p => (p, x)) }

/-- A client that has just connected, as `c`, to a server with these retained values. -/
def Net.init (dflt : Nat) (db : List Row) (t0 u0 : Nat) (c : Cid) : Net :=
  ({ server := boot db t0 u0, conn := some c } : Net).exec dflt (.connect c)

def Net.run (dflt : Nat) (n : Net) (es : List NEv) : Net := es.foldl (Net.step dflt) n

end Verif.PubSub.E2E
