import Verif.Model.Command
import Verif.Model.Store

/-!
# Model of a connection

`/repo/src/transport/tcp/connection.rs`.  Three kinds of tasks work on a connection: the socket task (`run_socket`,
108-145), the main loop (59-92) with one task per request (67-77), and the push bridge (41-52).  A schedule is a list
of `CEvent`s; each event is one step of one task.  The engine behind the request tasks is a parameter: `handle f e` is
what the task of frame `f` does to the engine and the answer it computes (`none`: the task panics; `JoinSet` swallows
that).  A handler may stop at `await` points in between, where other tasks run; that is the engine's business (see the
models of the brokers), here it counts as done when it computes its answer; sending the answer to the socket task is a step of
its own.  Channel capacities are not modelled here: a full channel only delays the sender (`Model/ConnBounded.lean`, C98).
-/

namespace Verif.Wire

/-- A connection in the middle of its life. -/
structure Conn (E : Type) where
  engine : E
  /-- in `inbound_rx` -/
  inbound : List Frame := []
  /-- request tasks that have not computed their answer -/
  running : List Frame := []
  /-- request tasks that have computed their answer and not sent it -/
  answered : List (Nat × Response) := []
  /-- in `push_rx` -/
  pushes : List Bytes := []
  /-- in `outbound_rx` -/
  outbound : List Outbound := []
  /-- handed to the framed writer -/
  written : List Outbound := []

inductive CEvent where
  /-- `connection.rs:120-126`: the socket task reads a frame -/
  | read (f : Frame)
  /-- `connection.rs:62-78`: the main loop takes a frame and spawns its task -/
  | spawn
  /-- `connection.rs:67-75`: the `i`-th running task computes its answer -/
  | complete (i : Nat)
  /-- `connection.rs:76`: the `i`-th task that has an answer sends it -/
  | post (i : Nat)
  /-- the pub-sub engine sends a packet to this client -/
  | pushed (packet : Bytes)
  /-- `connection.rs:44-51`: the bridge forwards a packet -/
  | bridge
  /-- `connection.rs:131-137`: the socket task writes a frame -/
  | write

/-- `connection.rs:69-75` around `dispatch`. -/
def handleFrame {E : Type} (disp : UInt8 → Bytes → E → E × Option Response) (unsupported : Str) (f : Frame) (e : E) :
    E × Option Response :=
  if f.ftype = typeRequest then disp f.op f.payload e else (e, some (.error unsupported))

/-- `connection.rs:76`: what a completed task sends. -/
def answerOf (f : Frame) : Option Response → List (Nat × Response)
  | none => []
  | some a => [(f.id, a)]

def Conn.step {E : Type} (handle : Frame → E → E × Option Response) (s : Conn E) : CEvent → Conn E
  | .read f => { s with inbound := s.inbound ++ [f] }
  | .spawn =>
    match s.inbound with
    | [] => s
    | f :: rest => { s with inbound := rest, running := s.running ++ [f] }
  | .complete i =>
    match s.running[i]? with
    | none => s
    | some f =>
      { s with
        engine := (handle f s.engine).1
        running := s.running.eraseIdx i
        answered := s.answered ++ answerOf f (handle f s.engine).2 }
  | .post i =>
    match s.answered[i]? with
    | none => s
    | some a => { s with answered := s.answered.eraseIdx i, outbound := s.outbound ++ [.response a.1 a.2] }
  | .pushed p => { s with pushes := s.pushes ++ [p] }
  | .bridge =>
    match s.pushes with
    | [] => s
    | p :: rest => { s with pushes := rest, outbound := s.outbound ++ [.push 0 p] }
  | .write =>
    match s.outbound with
    | [] => s
    | o :: rest => { s with outbound := rest, written := s.written ++ [o] }

def Conn.run {E : Type} (handle : Frame → E → E × Option Response) (s : Conn E) (evs : List CEvent) : Conn E :=
  evs.foldl (Conn.step handle) s

/-- The store's part of the dispatcher (`store/tcp.rs:72-87`), at time `now`; the other brokers are left out. -/
def storeExec (dflt now : Nat) (cmd : Cmd) (m : Store.Map) : Store.Map × Option Response :=
  match cmd with
  | .mapSet key opts value =>
    match Store.set dflt m key value opts.ttl now with
    | none => (m, none)
    | some m' => (m', some .ok)
  | .mapGet key =>
    match Store.get m key now with
    | some v => (m, some (.data v))
    | none => (m, some .null)
  | .mapDel key => ((Store.del m key).2, some .ok)
  | _ => (m, some .ok)

end Verif.Wire
