import Verif.Spec.QueueRpc
import Verif.Spec.Queue

/-!
# All the queues of a server, as one object

The queues of a server are a partial function from names to the three lists of `Spec/Queue.lean` with the two settings of the queue.
One command after the other is carried out on it, completely.  Nothing here refers to the model of the queue manager.
-/

namespace Verif.Rpc

open Verif Verif.Wire Verif.Sdk
open _root_.Verif.Spec.Queue (Req Ans Q Item Dead)

variable {I : Type}

/-- A queue: how long a message stays handed out, how often it is handed out, and what is in it. -/
structure Stand where
  vt : Nat
  maxRetries : Nat
  q : Q

/-- The queues by name. -/
abbrev Shop := Str → Option Stand

def Shop.set (s : Shop) (q : Str) (x : Option Stand) : Shop := fun n => if n = q then x else s n

/-- What a command asks of the queue it names; `fresh` is the id for a new message. -/
def asked (batch fresh now : Nat) : Cmd → Option (Str × Req)
  | .qPush q opts payload => some (q, .push fresh payload (opts.priority.getD 0) now)
  | .qConsume q opts => some (q, .consume (opts.batchSize.getD batch) now)
  | .qAck id q => some (q, .ack (beVal id))
  | .qNack id q reason => some (q, .nack (beVal id) reason now)
  | .qPeek q limit offset => some (q, .peekDlq limit offset)
  | .qMove q id => some (q, .moveToQueue (beVal id))
  | .qDelDlq q id => some (q, .deleteDlq (beVal id))
  | .qPurge q => some (q, .purgeDlq)
  | _ => none

/-- A consume whose batch is larger than any memory: `2^63` bytes at 16 bytes for each message. -/
def huge : Req → Bool
  | .consume max _ => decide (2 ^ 63 ≤ max * 16)
  | _ => false

/-- The outcome of a command: an answer of the queue; there is no such queue; or the server fails. -/
inductive Reply where
  | ans (a : Ans)
  | absent
  | broken

/-- "Timeout", the reason noted on messages that were not settled in time. -/
def lateReason : Str := [84, 105, 109, 101, 111, 117, 116]

def Shop.ask (s : Shop) (q : Str) (r : Req) : Shop × Reply :=
  match s q with
  | none => (s, .absent)
  | some x =>
    if huge r then (s, .broken)
    else
      let y := Spec.Queue.step x.vt x.maxRetries lateReason x.q r
      (s.set q (some { x with q := y.1 }), .ans y.2)

/-- One command on the queues; `vt`, `maxRetries` and `batch` are the server's defaults. -/
def Shop.serve (vt maxRetries batch fresh now : Nat) (s : Shop) (cmd : Cmd) : Shop × Reply :=
  match cmd with
  | .qCreate q opts =>
    (if (s q).isSome then s
      else s.set q (some ⟨opts.visibilityTimeoutMs.getD vt, opts.maxRetries.getD maxRetries, .empty⟩), .ans .done)
  | .qDelete q => (s.set q none, .ans .done)
  | .qExists q => (s, .ans (.bool (s q).isSome))
  | cmd =>
    match asked batch fresh now cmd with
    | some (q, r) => s.ask q r
    | none => (s, .ans .done)

/-! ### What the answers on the wire mean -/

/-- Dead letters on the wire: sixteen bytes of id, the payload with its length, the attempts, the reason with its length. -/
def readDead : Nat → Bytes → List (Bytes × Bytes × Nat × Str)
  | 0, _ => []
  | n + 1, b =>
    let k := beVal ((b.drop 16).take 4)
    let c := b.drop (20 + k)
    let j := beVal ((c.drop 4).take 4)
    (b.take 16, (b.drop 20).take k, beVal (c.take 4), (c.drop 8).take j) :: readDead n (c.drop (8 + j))

/-- A page of dead letters: their total number, and those on the page. -/
def readPage (d : Bytes) : Nat × List (Bytes × Bytes × Nat × Str) := (beVal (d.take 4), readDead (beVal ((d.drop 4).take 4)) (d.drop 8))

/-- The answer `r` of the server to the command tells the outcome.  Numbers are told in 32 bits. -/
def tells : Cmd → Reply → Option Response → Prop
  | _, .broken, r => r = none
  | _, .absent, r => ∃ m, r = some (.error m)
  | .qCreate .., .ans _, r => r = some .ok
  | .qDelete _, .ans _, r => r = some .ok
  | .qPush .., .ans _, r => r = some .ok
  | .qExists _, .ans (.bool b), r => if b then r = some .ok else ∃ m, r = some (.error m)
  | .qAck .., .ans (.bool b), r => if b then r = some .ok else ∃ m, r = some (.error m)
  | .qNack .., .ans (.bool b), r => if b then r = some .ok else ∃ m, r = some (.error m)
  | .qConsume .., .ans (.msgs l), r => (∃ d, r = some (.data d)) ∧ handed r = l.map (fun x => (uuidBytes x.id, x.payload))
  | .qPeek .., .ans (.page total l), r => ∃ d, r = some (.data d) ∧
    readPage d = (total % 2 ^ 32, l.map (fun x => (uuidBytes x.item.id, x.item.payload, x.item.attempts % 2 ^ 32, x.reason)))
  | .qMove .., .ans (.bool b), r => r = some (.data [if b then 1 else 0])
  | .qDelDlq .., .ans (.bool b), r => r = some (.data [if b then 1 else 0])
  | .qPurge _, .ans (.count n), r => ∃ d, r = some (.data d) ∧ d.length = 4 ∧ beVal d = n % 2 ^ 32
  | _, _, _ => False

/-! ### Histories -/

/-- The queues and the number of pushes so far, after one more act of the server: a command, or a step of a background task, of which
only the timeout tasks of the queues matter. -/
def shopStep (vt maxRetries batch : Nat) (supply : Nat → Nat) (bg : I → Option Queue.MEvent) (s : Shop × Nat) (a : Act I) : Shop × Nat :=
  match a with
  | .did _ cmd now _ => ((s.1.serve vt maxRetries batch (supply s.2) now cmd).1, s.2 + if isPush a then 1 else 0)
  | .ticked x =>
    match bg x with
    | some (.op q (.tick t t')) => ((s.1.ask q (.tick t t')).1, s.2)
    | _ => s

/-- The queues after the acts `u`, from an empty server. -/
def shopAfter (vt maxRetries batch : Nat) (supply : Nat → Nat) (bg : I → Option Queue.MEvent) (u : List (Act I)) : Shop × Nat :=
  u.foldl (shopStep vt maxRetries batch supply bg) (fun _ => none, 0)

/-- The outcome of a command that is carried out after the acts `u`. -/
def outcome (vt maxRetries batch : Nat) (supply : Nat → Nat) (bg : I → Option Queue.MEvent) (u : List (Act I)) (now : Nat) (cmd : Cmd) : Reply :=
  let s := shopAfter vt maxRetries batch supply bg u
  (s.1.serve vt maxRetries batch (supply s.2) now cmd).2

end Verif.Rpc
