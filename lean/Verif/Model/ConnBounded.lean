import Verif.Model.Connection

/-!
# Model of a connection with bounded channels and a bounded network

`/repo/src/transport/tcp/connection.rs`, as in `Model/Connection.lean`, but with everything that can be full: the two channels
between the socket task and the main loop (27-28, `channel_capacity_socket_write` frames each), and the network in
both directions.  A task that sends into something full waits there.  The socket task is one task (108-145): while it waits for room
in `inbound_rx` (123) it does not write, and while it waits for the network to accept a frame (134) it neither reads nor takes answers.

`step` is `none` when the task cannot take the step.  Which task goes next is up to the schedule (tokio gives the room in a full
channel to the sender that has waited longest; here to any sender, which allows more).  Simplifications: the network counts frames
instead of bytes; decoding is in `Model/Wire.lean`; the connection stays up.
-/

namespace Verif.Wire

/-- How much fits. -/
structure Limits where
  /-- `config.rs:49` `channel_capacity_socket_write` -/
  chan : Nat
  /-- the network, towards the server -/
  recv : Nat
  /-- the network, towards the client -/
  send : Nat
  deriving DecidableEq

/-- What the socket task is doing (`connection.rs:117-142`). -/
inductive Sock where
  /-- at `select!` -/
  | idle
  /-- `connection.rs:123`: waiting to pass a frame to the main loop -/
  | handing (f : Frame)
  /-- `connection.rs:134`: waiting for the network to accept a frame -/
  | writing (o : Outbound)
  deriving DecidableEq

structure BConn (E : Type) where
  engine : E
  /-- requests the client has not written -/
  toSend : List Frame := []
  /-- written by the client, not read by the socket task -/
  net : List Frame := []
  sock : Sock := .idle
  /-- in `inbound_rx` -/
  inbound : List Frame := []
  /-- request tasks that have not computed their answer -/
  running : List Frame := []
  /-- request tasks waiting at `connection.rs:76` -/
  answered : List (Nat × Response) := []
  /-- in `push_rx` -/
  pushes : List Bytes := []
  /-- the packet with which the bridge waits at `connection.rs:48` -/
  bridge : Option Bytes := none
  /-- in `outbound_rx` -/
  outbound : List Outbound := []
  /-- written by the server, not read by the client -/
  wire : List Outbound := []
  /-- read by the client -/
  received : List Outbound := []

inductive BEvent where
  /-- the application makes a request -/
  | ask (f : Frame)
  /-- the client writes a request -/
  | clientWrite
  /-- `connection.rs:120-122`: the socket task reads a frame -/
  | take
  /-- `connection.rs:123`: and passes it on -/
  | handIn
  /-- `connection.rs:62-78`: the main loop takes a frame and spawns its task -/
  | spawn
  /-- `connection.rs:67-75`: a task computes its answer -/
  | complete (i : Nat)
  /-- `connection.rs:76`: a task sends its answer and ends -/
  | post (i : Nat)
  /-- the pub-sub engine sends a packet to this client -/
  | pushed (packet : Bytes)
  /-- `connection.rs:44-46`: the bridge takes a packet -/
  | bridgeTake
  /-- `connection.rs:48`: and sends it -/
  | bridgePost
  /-- `connection.rs:131-133`: the socket task takes a frame -/
  | pick
  /-- `connection.rs:134`: and the network accepts it -/
  | flush
  /-- the client reads a frame -/
  | clientRead
  deriving DecidableEq

def BConn.step {E : Type} (lim : Limits) (handle : Frame → E → E × Option Response) (s : BConn E) : BEvent → Option (BConn E)
  | .ask f => some { s with toSend := s.toSend ++ [f] }
  | .clientWrite =>
    match s.toSend with
    | [] => none
    | f :: rest => if s.net.length < lim.recv then some { s with toSend := rest, net := s.net ++ [f] } else none
  | .take =>
    match s.sock, s.net with
    | .idle, f :: rest => some { s with net := rest, sock := .handing f }
    | _, _ => none
  | .handIn =>
    match s.sock with
    | .handing f => if s.inbound.length < lim.chan then some { s with sock := .idle, inbound := s.inbound ++ [f] } else none
    | _ => none
  | .spawn =>
    match s.inbound with
    | [] => none
    | f :: rest => some { s with inbound := rest, running := s.running ++ [f] }
  | .complete i =>
    match s.running[i]? with
    | none => none
    | some f =>
      some { s with
        engine := (handle f s.engine).1
        running := s.running.eraseIdx i
        answered := s.answered ++ answerOf f (handle f s.engine).2 }
  | .post i =>
    match s.answered[i]? with
    | none => none
    | some a =>
      if s.outbound.length < lim.chan then
        some { s with answered := s.answered.eraseIdx i, outbound := s.outbound ++ [.response a.1 a.2] }
      else none
  | .pushed p => some { s with pushes := s.pushes ++ [p] }
  | .bridgeTake =>
    match s.bridge, s.pushes with
    | none, p :: rest => some { s with pushes := rest, bridge := some p }
    | _, _ => none
  | .bridgePost =>
    match s.bridge with
    | none => none
    | some p => if s.outbound.length < lim.chan then some { s with bridge := none, outbound := s.outbound ++ [.push 0 p] } else none
  | .pick =>
    match s.sock, s.outbound with
    | .idle, o :: rest => some { s with outbound := rest, sock := .writing o }
    | _, _ => none
  | .flush =>
    match s.sock with
    | .writing o => if s.wire.length < lim.send then some { s with sock := .idle, wire := s.wire ++ [o] } else none
    | _ => none
  | .clientRead =>
    match s.wire with
    | [] => none
    | o :: rest => some { s with wire := rest, received := s.received ++ [o] }

/-- A schedule; `none` if some step of it cannot be taken. -/
def BConn.run {E : Type} (lim : Limits) (handle : Frame → E → E × Option Response) (s : BConn E) : List BEvent → Option (BConn E)
  | [] => some s
  | e :: es => (s.step lim handle e).bind (fun s' => BConn.run lim handle s' es)

end Verif.Wire
