import Verif.Model.QueueRpc
import Verif.Spec.Rpc
import Verif.Spec.QueueObs

/-!
# The queues behind the network: vocabulary
-/

namespace Verif.Rpc

open Verif Verif.Wire Verif.Sdk

variable {E I : Type}

/-! ### What the server does, in order -/

/-- Something that happens to the server's data: a command is carried out (for connection `l`, at `now`, with answer `r`), or a
background task takes a step. -/
inductive Act (I : Type) where
  | did (l : Nat) (cmd : Cmd) (now : Nat) (r : Option Response)
  | ticked (x : I)

/-- The act an observation shows, after the observations `past`. -/
def actOf (past : List (Obs I)) : Obs I → Option (Act I)
  | .executed l f now r => (cmdAt l f.id past).map (fun cmd => .did l cmd now r)
  | .ticked x => some (.ticked x)
  | _ => none

def actsFrom (past : List (Obs I)) : List (Obs I) → List (Act I)
  | [] => []
  | o :: tr => (actOf past o).toList ++ actsFrom (past ++ [o]) tr

/-- What the server did, in the order of the trace; every command is the one that was asked for. -/
def acts (tr : List (Obs I)) : List (Act I) := actsFrom [] tr

/-! ### The server's queues -/

def isQueue : Cmd → Bool
  | .qCreate .. | .qPush .. | .qConsume .. | .qAck .. | .qNack .. | .qExists _ | .qDelete _ | .qPeek .. | .qMove .. | .qDelDlq .. | .qPurge _ => true
  | _ => false

/-- The server has queues (`part`) that only the queue commands and the queues' own tasks touch (`bg`: the writer of a queue commits,
or its timeout task runs); whatever else is in the engine is left open. -/
structure QueuePart (srv : Server E I) (cfg : Queue.Config) (batch : Nat) (supply : Nat → Queue.Id) (part : E → Queues)
    (bg : I → Option Queue.MEvent) : Prop where
  exec : ∀ l now cmd e, isQueue cmd = true →
    (part (srv.exec l now cmd e).1, (srv.exec l now cmd e).2) = queueExec cfg batch supply now cmd (part e)
  other : ∀ l now cmd e, isQueue cmd = false → part (srv.exec l now cmd e).1 = part e
  tick : ∀ x e, part (srv.tick x e) =
    match bg x with | some ev => { part e with mgr := ((part e).mgr.step cfg ev).1 } | none => part e
  tasks : ∀ x ev, bg x = some ev → (∃ n k, ev = .commit n k) ∨ ∃ n t t', ev = .op n (.tick t t')

/-- Steps of background tasks that only touch the queues: a writer commits, a timeout task runs, or the server crashes and starts again. -/
def QTasks (bg : I → Option Queue.MEvent) : Prop :=
  ∀ x ev, bg x = some ev → (∃ n k, ev = .commit n k) ∨ (∃ n t t', ev = .op n (.tick t t')) ∨ ∃ now, ev = .restart now

/-- The same, for a server that may crash: a crash with the following start is a step of the background (`restart`), at any moment.
(That the connections break with a crash and that their unfinished requests are never carried out need not be required: it is one
of the runs in which they just do not come.) -/
structure QueueHost (srv : Server E I) (cfg : Queue.Config) (batch : Nat) (supply : Nat → Queue.Id) (part : E → Queues)
    (bg : I → Option Queue.MEvent) : Prop where
  exec : ∀ l now cmd e, isQueue cmd = true →
    (part (srv.exec l now cmd e).1, (srv.exec l now cmd e).2) = queueExec cfg batch supply now cmd (part e)
  other : ∀ l now cmd e, isQueue cmd = false → part (srv.exec l now cmd e).1 = part e
  tick : ∀ x e, part (srv.tick x e) =
    match bg x with | some ev => { part e with mgr := ((part e).mgr.step cfg ev).1 } | none => part e
  tasks : QTasks bg

theorem QueuePart.host {srv : Server E I} {cfg : Queue.Config} {batch : Nat} {supply : Nat → Queue.Id} {part : E → Queues}
    {bg : I → Option Queue.MEvent} (h : QueuePart srv cfg batch supply part bg) : QueueHost srv cfg batch supply part bg :=
  ⟨h.exec, h.other, h.tick, fun x ev hx => (h.tasks x ev hx).elim .inl (fun h => .inr (.inl h))⟩

/-- The first `n` ids are different and sixteen bytes long (`Uuid::new_v4`). -/
structure Uuids (supply : Nat → Queue.Id) (n : Nat) : Prop where
  inj : ∀ i j, i < n → j < n → supply i = supply j → i = j
  small : ∀ i, i < n → supply i < 2 ^ 128

/-! ### Messages -/

/-- A batch on the wire: for each message sixteen bytes of id, the length of the payload, the payload. -/
def readMsgs : Nat → Bytes → List (Bytes × Bytes)
  | 0, _ => []
  | n + 1, b =>
    let k := beVal ((b.drop 16).take 4)
    (b.take 16, (b.drop 20).take k) :: readMsgs n (b.drop (20 + k))

/-- The messages (id and payload) that an answer to a consume hands out: the data is their number and the batch. -/
def handed : Option Response → List (Bytes × Bytes)
  | some (.data d) => readMsgs (beVal (d.take 4)) (d.drop 4)
  | _ => []

/-- The ids of these messages. -/
def handedIds (r : Option Response) : List Bytes := (handed r).map (·.1)

/-- The command pushes a message. -/
def isPush : Act I → Bool
  | .did _ (.qPush ..) _ _ => true
  | _ => false

/-- The id of the message that is pushed after the acts `u`: ids are numbered by the pushes. -/
def pushedId (supply : Nat → Queue.Id) (u : List (Act I)) : Bytes := uuidBytes (supply (u.countP isPush))

/-- The act is a consume on queue `q` that hands out message `i`. -/
def handsOut (q : Str) (i : Bytes) (a : Act I) : Prop :=
  ∃ l opts now r, a = .did l (.qConsume q opts) now r ∧ i ∈ handedIds r

/-- The act deletes queue `q`. -/
def deletes (q : Str) (a : Act I) : Prop := ∃ l now r, a = .did l (.qDelete q) now r

/-- The act acknowledges message `i` of queue `q` or refuses it. -/
def settles (q : Str) (i : Bytes) (a : Act I) : Prop :=
  (∃ l now r, a = .did l (.qAck i q) now r) ∨ ∃ l reason now r, a = .did l (.qNack i q reason) now r

/-- The act is a run of the timeout task of queue `q` that reads the clock at `t` or later. -/
def timeoutFrom (bg : I → Option Queue.MEvent) (q : Str) (t : Nat) (a : Act I) : Prop :=
  ∃ x s s', a = .ticked x ∧ bg x = some (.op q (.tick s s')) ∧ t ≤ s'

/-! ### Crashes -/

/-- The server crashes, and starts again at `now`. -/
def crashesAt (bg : I → Option Queue.MEvent) (now : Nat) (a : Act I) : Prop := ∃ x, a = .ticked x ∧ bg x = some (.restart now)

def crashes (bg : I → Option Queue.MEvent) (a : Act I) : Prop := ∃ now, crashesAt bg now a

/-- Nothing about message `i` of queue `q` still has to be written to the queue's database. -/
def Stored (s : Queues) (q : Str) (i : Bytes) : Prop :=
  ∀ live, mget s.mgr.live q = some live → ∀ op ∈ live.pending, Queue.touches (beVal i) op = false

end Verif.Rpc
