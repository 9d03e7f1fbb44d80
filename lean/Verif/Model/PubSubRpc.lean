import Verif.Model.Rpc
import Verif.Model.PubSub

/-!
# Model of publish/subscribe behind the network, byte by byte

`/repo/src/brokers/pub-sub/tcp.rs:62-90` `handle`: which operation of the publish/subscribe broker (`Model/PubSub.lean`) a parsed command
runs; and `/repo/src/transport/tcp/connection.rs:36-52`, `94-102`: how the broker and the connections are tied together.  The clients, the
network and the server's tasks are those of `Model/Rpc.lean`.

An operation of the broker is carried out in one step (`Model/PubSubRace.lean` has them overlap), and it puts its messages into the
channels of the connections in that step.  Everything after that takes its time: the bridge forwards a message to the socket task, the
socket task writes it, the network carries it in chunks, the client reads it.
-/

namespace Verif.Rpc

open Verif Verif.Wire Verif.Sdk

/-- The broker, and what it has put into the channels of the connections so far (`manager.rs:139`, `183`), oldest first.  `steps`: how many
operations it has carried out. -/
structure Hub where
  st : PubSub.State
  sent : List (Nat × PubSub.Msg) := []
  steps : Nat := 0

/-- What the commands do not determine: the default time to live of retained values (`config.rs`), and for the `k`-th operation the order
in which the hash maps of the tree are iterated, and the wall clock. -/
structure HubEnv where
  dflt : Nat
  order : Nat → List PubSub.Msg
  unix : Nat → Nat

def Hub.step (env : HubEnv) (h : Hub) (op : PubSub.Op) : Hub :=
  { st := (PubSub.step env.dflt h.st op).1
    sent := h.sent ++ (PubSub.step env.dflt h.st op).2.sent
    steps := h.steps + 1 }

/-- `tcp.rs:75-90`, `options.rs:24-31` `from_options`: the operation a command of connection `l` runs, as the `k`-th one. -/
def hubCall (env : HubEnv) (k l now : Nat) : Cmd → Option PubSub.Op
  | .publish topic opts payload =>
    some (.publish topic payload (opts.retain.getD false) (some (opts.ttl.getD env.dflt)) now (env.unix k))
  | .subscribe p => some (.subscribe l p (env.order k) now)
  | .unsubscribe p => some (.unsubscribe l p)
  | _ => none

/-- `tcp.rs:62-90`: every command is answered with ok, unless it panics (`Retained.new`). -/
def hubExec (env : HubEnv) (l now : Nat) (cmd : Cmd) (h : Hub) : Hub × Option Response :=
  match hubCall env h.steps l now cmd with
  | none => (h, none)
  | some op => (h.step env op, if (PubSub.step env.dflt h.st op).2.panicked then none else some .ok)

/-- The background steps of the engine with which a connection tells the broker of its beginning and of its end. -/
structure Desk (I : Type) where
  /-- `connection.rs:39` -/
  opened : Nat → I
  /-- `connection.rs:50`, `100`: the bridge ends, and with it the receiving end of the channel -/
  faded : Nat → I
  /-- `connection.rs:101` -/
  left : Nat → I

inductive HEv (I : Type) where
  /-- as in `Model/Rpc.lean` -/
  | ev (e : Ev I)
  /-- the bridge of connection `l` ends -/
  | fade (l : Nat)
  /-- the connection tells the broker that it has ended -/
  | leave (l : Nat)

variable {E I : Type}

/-- The broker learns of connections only from them, and its messages come only from it. -/
def mine (bg : I → Option PubSub.Op) : Ev I → Bool
  | .server _ _ (.pushed _) => true
  | .tick x => match bg x with | some (.connect _) | some (.drop _) | some (.disconnect _) => true | _ => false
  | _ => false

/-- The steps of `Model/Rpc.lean` that an event stands for.  Simplification: the broker knows a connection from the moment the client's
socket is open (it cannot be seen if it is later, as no request is read before). -/
def HEv.first (desk : Desk I) (bg : I → Option PubSub.Op) (w : World E) : HEv I → List (Ev I)
  | .ev (.lib p e) =>
    if e = .opened ∧ (w.peers p).lib.socket = .connecting then [.lib p e, .tick (desk.opened w.made)] else [.lib p e]
  | .ev e => if mine bg e then [] else [e]
  | .fade l => if l < w.made ∧ (w.links l).ended = true then [.tick (desk.faded l)] else []
  | .leave l => if l < w.made ∧ (w.links l).ended = true then [.tick (desk.left l)] else []

/-- `manager.rs:139`, `183`, `types.rs:36-45`: the messages the broker has just sent go into the channels of their connections. -/
def handOver (old new : Hub) : List (Ev I) :=
  (new.sent.drop old.sent.length).map (fun e => .server e.1 0 (.pushed (wirePush e.2.topic e.2.payload)))

/-- All steps an event stands for. -/
def HEv.steps (pr : Printer) (srv : Server E I) (desk : Desk I) (bg : I → Option PubSub.Op) (part : E → Hub) (w : World E) (e : HEv I) :
    List (Ev I) :=
  let first := e.first desk bg w
  first ++ handOver (part w.engine) (part (w.run pr srv first).1.engine)

/-- All steps a list of events stands for. -/
def expand (pr : Printer) (srv : Server E I) (desk : Desk I) (bg : I → Option PubSub.Op) (part : E → Hub) (w : World E) :
    List (HEv I) → List (Ev I)
  | [] => []
  | e :: es =>
    let now := e.steps pr srv desk bg part w
    now ++ expand pr srv desk bg part (w.run pr srv now).1 es

/-- `connection.ts:177-192` `handleFrame`, as far as pushes go: their packets. -/
def pushPackets : List Frame → List Bytes
  | [] => []
  | f :: fs => if f.ftype = typePush then f.payload :: pushPackets fs else pushPackets fs

/-- The packets that a client reads in a step, and over which connection. -/
def arriving (w : World E) : Ev I → List (Nat × Bytes)
  | .toClient l n =>
    let k := w.links l
    let x := w.peers k.peer
    if x.link = some l then (pushPackets (tsDrain (x.buf ++ k.toClient.take n)).1).map (fun b => (l, b)) else []
  | _ => []

/-- The packets that the clients read in a run. -/
def arrivals (pr : Printer) (srv : Server E I) (w : World E) : List (Ev I) → List (Nat × Bytes)
  | [] => []
  | e :: es => arriving w e ++ arrivals pr srv (w.step pr srv e).1 es

end Verif.Rpc
