import Verif.Model.Rpc
import Verif.Spec.Wire
import Verif.Spec.Command

/-!
# What an application may expect of its requests

Everything here is about the trace of a run: the requests made, the moments at which the server carried one out, and
the promises settled.
-/

namespace Verif.Rpc

open Verif Verif.Wire Verif.Sdk

variable {E I : Type}

/-- The command that an observation shows being written on connection `l` under `id`. -/
def Obs.wrote (l id : Nat) : Obs I → Option Cmd
  | .called _ _ cmd sent => if sent = some (l, id) then some cmd else none
  | .fired _ cmd sent => if sent = some (l, id) then some cmd else none
  | _ => none

/-- The command that was written on connection `l` under `id`. -/
def cmdAt (l id : Nat) (tr : List (Obs I)) : Option Cmd := tr.findSome? (Obs.wrote l id)

/-- What an observation means for the engine, after the observations `past`: a request that is carried out is the command
that was asked for. -/
def effect (srv : Server E I) (past : List (Obs I)) (o : Obs I) (e : E) : E :=
  match o with
  | .executed l f now _ =>
    match cmdAt l f.id past with
    | some cmd => (srv.exec l now cmd e).1
    | none => e
  | .ticked x => srv.tick x e
  | _ => e

def replay (srv : Server E I) (past : List (Obs I)) (e : E) : List (Obs I) → E
  | [] => e
  | o :: tr => replay srv (past ++ [o]) (effect srv past o e) tr

/-- The engine if all requests had been carried out one after the other, in the order of the trace, each being the command
that was asked for. -/
def state (srv : Server E I) (e : E) (tr : List (Obs I)) : E := replay srv [] e tr

/-- The command of an observation, if it is a request. -/
def Obs.cmd? : Obs I → Option Cmd
  | .called _ _ cmd _ => some cmd
  | .fired _ cmd _ => some cmd
  | _ => none

/-- A request of client `p`. -/
def Obs.isBy (p : Nat) : Obs I → Bool
  | .called q .. => decide (q = p)
  | .fired q .. => decide (q = p)
  | _ => false

/-- How often promise `tag` of client `p` was settled. -/
def timesSettled (p tag : Nat) (tr : List (Obs I)) : Nat :=
  tr.countP (fun o => match o with | .settled q t _ => decide (q = p ∧ t = tag) | _ => false)

/-- How often client `p` made a request named `tag`. -/
def timesCalled (p tag : Nat) (tr : List (Obs I)) : Nat :=
  tr.countP (fun o => match o with | .called q t _ _ => decide (q = p ∧ t = tag) | _ => false)

/-- The status and the data with which an answer settles a promise: ok, error (length and text), null, data. -/
def shows (r : Response) : UInt8 × Bytes :=
  match r with
  | .ok => (0, [])
  | .error m => (1, be32 m.length ++ m)
  | .null => (2, [])
  | .data d => (3, d)

/-- The trace stays within the limits of the wire format: commands and their bodies, answers and pushes fit their length
fields, serde reads what `JSON.stringify` wrote, and no client makes 2^31 - 1 requests or more (C63). -/
structure Ordinary (pr : Printer) (srv : Server E I) (tr : List (Obs I)) : Prop where
  cmds : ∀ o ∈ tr, ∀ cmd, o.cmd? = some cmd → cmd.Fits ∧ cmd.Json srv.sd pr ∧
    ∀ op body, tsBody pr cmd = some (op, body) → body.length < 2 ^ 32
  answers : ∀ l f now r, Obs.executed l f now (some r) ∈ tr → (Outbound.response f.id r).frame.payload.length < 2 ^ 32
  pushes : ∀ l p, Obs.pushed l p ∈ tr → p.length < 2 ^ 32
  ids : ∀ p, tr.countP (Obs.isBy p) < 2 ^ 31 - 1

/-- No request is larger than `server.max_payload_size`. -/
def Within (pr : Printer) (srv : Server E I) (tr : List (Obs I)) : Prop :=
  ∀ o ∈ tr, ∀ cmd, o.cmd? = some cmd → ∀ op body, tsBody pr cmd = some (op, body) → body.length ≤ srv.max

/-- Nothing is on its way between client `p` and the server: it is connected, everything written was read, and no task runs. -/
def World.Quiet (w : World E) (p : Nat) : Prop :=
  ∀ l, (w.peers p).link = some l → (w.links l).toServer = [] ∧ (w.links l).conn.inbound = [] ∧ (w.links l).conn.running = [] ∧
    (w.links l).conn.answered = [] ∧ (w.links l).conn.outbound = [] ∧ (w.links l).toClient = []

/-- The network and the server's tasks at work on connection `l`: no call, no loss. -/
def Ev.works (l : Nat) : Ev I → Bool
  | .toServer l' _ | .toClient l' _ | .server l' _ .spawn | .server l' _ (.complete _) | .server l' _ (.post _) | .server l' _ .write => l' == l
  | _ => false

end Verif.Rpc
