import Verif.Model.Connection
import Verif.Model.SdkConnection

/-!
# Model of clients, network and server together, byte by byte

Any number of client libraries (`/repo/sdk/ts/src/connection.ts`), their TCP connections, and one server
(`/repo/src/transport/tcp/connection.rs`) with one engine behind all connections.  The parts are those of
`Model/SdkConnection.lean`, `Model/Wire.lean` and `Model/Connection.lean`; this file puts them together: the client's calls
become bytes, the bytes arrive in chunks of any size, every complete frame becomes a task, the tasks complete in any order,
their answers become bytes and arrive in chunks, and the client settles its promises.

TCP: what one end writes arrives at the other in order, in chunks of any size, or never (when the connection ends).
Simplifications: a handler runs in one step, at the time it computes its answer (for the store that is the `DashMap` call);
channel capacities are not modelled (a full channel only delays: C98); pushes travel, but what the client does with them is in
`Model/SdkPubSub.lean`.  A connection whose `handle_connection` has returned reads, starts and writes nothing any more; tasks
that had been started may still complete (more than `abort_all` allows).
-/

namespace Verif.Rpc

open Verif Verif.Wire Verif.Sdk

/-- The server's parameters: `server.max_payload_size`, serde, the rest of the handlers for a request that came on a
connection at a time (`none`: panic), what else changes the engine (background tasks), the texts of error answers. -/
structure Server (E I : Type) where
  max : Nat
  sd : Serde
  exec : Nat → Nat → Cmd → E → E × Option Response
  tick : I → E → E
  parseError : Str := []
  unsupported : Str := []

/-- `connection.rs:67-75`: the task of a frame. -/
def Server.handle {E I : Type} (srv : Server E I) (l now : Nat) : Frame → E → E × Option Response :=
  handleFrame (dispatch srv.sd (srv.exec l now) srv.parseError) srv.unsupported

/-- A TCP connection and the server's end of it. -/
structure Link (E : Type) where
  /-- the client that made it -/
  peer : Nat
  /-- written by the client, not read by the server -/
  toServer : Bytes := []
  /-- `connection.rs:114`: the server's decoder -/
  reader : Reader := {}
  /-- `connection.rs:17-92` -/
  conn : Conn E
  /-- written by the server, not read by the client -/
  toClient : Bytes := []
  /-- `handle_connection` has returned -/
  ended : Bool := false

/-- A client: `connection.ts:10-46`, its socket's connection, and `this.buffer`. -/
structure Peer where
  lib : Client := {}
  link : Option Nat := none
  buf : Bytes := []

structure World (E : Type) where
  engine : E
  peers : Nat → Peer
  links : Nat → Link E
  /-- how many connections have been made -/
  made : Nat

/-- Function update. -/
def upd {α : Type} (f : Nat → α) (i : Nat) (x : α) : Nat → α := fun j => if j = i then x else f j

inductive Ev (I : Type) where
  /-- something happens to a client: connecting, losing the socket, timers, `disconnect` -/
  | lib (p : Nat) (e : CEv)
  /-- the application of client `p` makes a request -/
  | call (p tag timeoutMs now : Nat) (cmd : Cmd)
  /-- a request whose answer is not awaited (`sendFireAndForget`) -/
  | fire (p : Nat) (cmd : Cmd)
  /-- the server reads up to `n` bytes from connection `l` -/
  | toServer (l n : Nat)
  /-- a step of the tasks of connection `l` -/
  | server (l now : Nat) (e : CEvent)
  /-- connection `l` ends at the server -/
  | drop (l : Nat)
  /-- the client reads up to `n` bytes from connection `l` -/
  | toClient (l n : Nat)
  /-- a background task of the engine -/
  | tick (x : I)

/-- What can be seen from outside. -/
inductive Obs (I : Type) where
  /-- a request, and on which connection and under which id it was written -/
  | called (p tag : Nat) (cmd : Cmd) (sent : Option (Nat × Nat))
  /-- the same for a request whose answer is not awaited -/
  | fired (p : Nat) (cmd : Cmd) (sent : Option (Nat × Nat))
  /-- the server has carried out the request in a frame of connection `l` -/
  | executed (l : Nat) (f : Frame) (now : Nat) (r : Option Response)
  /-- the engine has handed a packet to the push bridge of connection `l` -/
  | pushed (l : Nat) (packet : Bytes)
  | ticked (x : I)
  /-- a promise is settled -/
  | settled (p tag : Nat) (o : Outcome)
  deriving DecidableEq

/-- The events of `Ev.lib`; the others have their own constructors. -/
def outside : CEv → Bool
  | .send .. | .fire | .response .. => false
  | _ => true

def settle {I : Type} (p : Nat) (outs : List (Nat × Outcome)) : List (Obs I) := outs.map (fun o => .settled p o.1 o.2)

/-- `connection.ts:117-122`: a closed socket's connection and buffer are forgotten. -/
def Peer.after (x : Peer) (e : CEv) (lib : Client) : Peer :=
  if lib.socket = .opened then { x with lib }
  else
    match e with
    | .refused | .lost | .disconnect => { lib, link := none, buf := [] }
    | _ => { x with lib, link := none }

/-- The client writes a request (`connection.ts:219-221`, `248`, `264-267`). -/
def World.write {E : Type} (w : World E) (l id : Nat) (op : UInt8) (body : Bytes) : World E :=
  { w with links := upd w.links l { w.links l with toServer := (w.links l).toServer ++ tsFinish id op body } }

/-- `connection.ts:177-208` `handleFrame`, as far as responses go. -/
def responses : List Frame → List CEv
  | [] => []
  | f :: fs => if f.ftype = typeResponse then .response f.id f.op f.payload :: responses fs else responses fs

/-- `connection.rs:120-126`: the decoded frames go to the main loop. -/
def handOn {E : Type} (c : Conn E) (fs : List Frame) : Conn E :=
  fs.foldl (fun c f => c.step (fun _ e => (e, none)) (.read f)) c

variable {E I : Type}

def World.step (pr : Printer) (srv : Server E I) (w : World E) : Ev I → World E × List (Obs I)
  | .lib p e =>
    let x := w.peers p
    let r := x.lib.step e
    if !outside e then (w, [])
    else if e = .opened ∧ x.lib.socket = .connecting then
      ({ w with
          peers := upd w.peers p { x with lib := r.1, link := some w.made }
          links := upd w.links w.made { peer := p, conn := { engine := w.engine } }
          made := w.made + 1 }, settle p r.2)
    else ({ w with peers := upd w.peers p (x.after e r.1) }, settle p r.2)
  | .call p tag timeoutMs now cmd =>
    let x := w.peers p
    match tsBody pr cmd with
    | none =>
      -- `connection.ts:215-219`: the id is taken, and `build` throws
      ({ w with peers := upd w.peers p { x with lib := { x.lib with nextId := tsNextId x.lib.nextId } } },
       [.called p tag cmd none, .settled p tag .threw])
    | some (op, body) =>
      let r := x.lib.step (.send tag timeoutMs now)
      let w1 := { w with peers := upd w.peers p { x with lib := r.1 } }
      match x.lib.wrote (.send tag timeoutMs now), x.link with
      | some id, some l => (w1.write l id.toNat op body, .called p tag cmd (some (l, id.toNat)) :: settle p r.2)
      | _, _ => (w1, .called p tag cmd none :: settle p r.2)
  | .fire p cmd =>
    let x := w.peers p
    let w1 := { w with peers := upd w.peers p { x with lib := (x.lib.step .fire).1 } }
    match tsBody pr cmd with
    | none => (w1, [.fired p cmd none])
    | some (op, body) =>
      match x.lib.wrote .fire, x.link with
      | some id, some l => (w1.write l id.toNat op body, [.fired p cmd (some (l, id.toNat))])
      | _, _ => (w1, [.fired p cmd none])
  | .toServer l n =>
    let k := w.links l
    if k.ended then (w, [])
    else
      let rd := k.reader.feed srv.max (k.toServer.take n)
      let k' : Link E := { k with
        toServer := k.toServer.drop n
        reader := rd
        conn := handOn k.conn (rd.frames.drop k.reader.frames.length) }
      ({ w with links := upd w.links l k' }, [])
  | .server l now e =>
    let k := w.links l
    let c := Conn.step (srv.handle l now) { k.conn with engine := w.engine } e
    match e with
    | .read _ => (w, [])
    | .complete i =>
      ({ w with engine := c.engine, links := upd w.links l { k with conn := c } },
       match k.conn.running[i]? with
       | none => []
       | some f => [.executed l f now (srv.handle l now f w.engine).2])
    | _ =>
      if k.ended then (w, [])
      else
        let k' : Link E := { k with
          conn := c
          toClient := k.toClient ++ (c.written.drop k.conn.written.length).flatMap encode }
        ({ w with links := upd w.links l k' }, match e with | .pushed packet => [.pushed l packet] | _ => [])
  | .drop l => ({ w with links := upd w.links l { w.links l with ended := true } }, [])
  | .toClient l n =>
    let k := w.links l
    let x := w.peers k.peer
    if x.link = some l then
      let r := tsDrain (x.buf ++ k.toClient.take n)
      ({ w with
          peers := upd w.peers k.peer { x with lib := x.lib.run (responses r.1), buf := r.2 }
          links := upd w.links l { k with toClient := k.toClient.drop n } },
       settle k.peer (x.lib.outcomes (responses r.1)))
    else (w, [])
  | .tick x => ({ w with engine := srv.tick x w.engine }, [.ticked x])

def World.init (e : E) : World E :=
  { engine := e, peers := fun _ => {}, links := fun _ => { peer := 0, conn := { engine := e } }, made := 0 }

/-- A run: the world after it, and what could be seen. -/
def World.run (pr : Printer) (srv : Server E I) (w : World E) : List (Ev I) → World E × List (Obs I)
  | [] => (w, [])
  | e :: es =>
    let r := w.step pr srv e
    let r' := World.run pr srv r.1 es
    (r'.1, r.2 ++ r'.2)

end Verif.Rpc
