import Verif.Model.QueueStore

/-!
# The queue's storage task, with failures

`/repo/src/brokers/queue/domain/persistence.rs:128-221` `run_writer` and `flush_batch`: the channel, the batch, the
batch size, the flush timer, and what happens when a transaction cannot be started, a statement fails or the commit
fails.  `Verif.Model.QueueStore` abstracts from all this (an event `commit n`); `Verif.Proofs.QueueWriter` relates the two.

Simplifications.  One round of the loop is atomic; requests send to the channel before or after it (a request that sends
while the round is draining the channel is as good as one that has sent before it or after it).  A failed statement leaves
the tables as they were and the transaction open; a failed commit rolls everything back.  The database can be opened
(`140-146`), the configuration of the connection succeeds (`147-158`), and so does loading the tables on a restart.  As in
`Sys`, the storage operations of a request are sent in the order of the state changes.
-/

namespace Verif.Queue

/-- What happens to one operation inside a transaction (`persistence.rs:210-214`: errors are only logged).  `second`: the
first of the two statements of a move succeeds and the second fails (`395-414`, `415-433`). -/
inductive Fault where
  | none
  | first
  | second
  deriving DecidableEq, Repr

/-- `persistence.rs:350-441` `exec_op` when a statement fails. -/
def execFault (db : DB) (op : StorageOp) : Fault → DB
  | .none => execOp db op
  | .first => db
  | .second =>
    match op with
    | .moveToDlq id _ => { db with main := mdel db.main id }
    | .moveToMain id _ => { db with dlq := mdel db.dlq id }
    | op => execOp db op

/-- `persistence.rs:210-214`: the operations of a batch, each with its fault (none where the list ends). -/
def execFaults (db : DB) : List StorageOp → List Fault → DB
  | [], _ => db
  | op :: t, [] => execFaults (execOp db op) t []
  | op :: t, f :: fs => execFaults (execFault db op f) t fs

/-- How a transaction goes. -/
inductive Outcome where
  /-- it cannot be started -/
  | noStart
  /-- it is committed; some statements may have failed -/
  | commit (faults : List Fault)
  /-- the commit fails -/
  | noCommit
  deriving DecidableEq, Repr

/-- `persistence.rs:201-221` `flush_batch`: database and batch afterwards. -/
def flushBatch (db : DB) (batch : List StorageOp) : Outcome → DB × List StorageOp
  | .noStart => (db, batch)
  | .commit faults => (execFaults db batch faults, [])
  | .noCommit => (db, [])

/-- A queue with its storage task: `chan` is the channel, `batch` the task's batch. -/
structure WSys where
  q : QInner
  db : DB
  chan : List StorageOp
  batch : List StorageOp
  deriving DecidableEq, Repr

/-- What can happen: a request; the task receives (`persistence.rs:172-187`); its timer fires (`196-200`); the process dies
and starts again. -/
inductive KEvent where
  | op (o : Op)
  | recv (r : Outcome)
  | tick (r : Outcome)
  | restart (now : Nat)
  deriving DecidableEq, Repr

/-- `persistence.rs:172-187`: take one operation from the channel and then whatever there is, up to the batch size; flush a
full batch. -/
def WSys.recv (size : Nat) (s : WSys) (r : Outcome) : WSys :=
  match s.chan with
  | [] => s
  | op :: rest =>
    let batch := s.batch ++ [op]
    let n := size - batch.length
    let batch := batch ++ rest.take n
    if size ≤ batch.length then
      let f := flushBatch s.db batch r
      { s with db := f.1, batch := f.2, chan := rest.drop n }
    else { s with batch := batch, chan := rest.drop n }

/-- `persistence.rs:196-200`. -/
def WSys.tick (s : WSys) (r : Outcome) : WSys :=
  match s.batch with
  | [] => s
  | _ :: _ =>
    let f := flushBatch s.db s.batch r
    { s with db := f.1, batch := f.2 }

/-- One event; `size` is the batch size (`persistence.rs:132`). -/
def WSys.step (size : Nat) (s : WSys) : KEvent → WSys × Option Out
  | .op o =>
    let r := Queue.step s.q o
    ({ s with q := r.1, chan := s.chan ++ r.2.2 }, some r.2.1)
  | .recv r => (s.recv size r, none)
  | .tick r => (s.tick r, none)
  | .restart now => ({ s with q := recover s.q.cfg now s.db, chan := [], batch := [] }, none)

/-- A history of events. -/
def WSys.run (size : Nat) (s : WSys) : List KEvent → WSys × List (Option Out)
  | [] => (s, [])
  | e :: t =>
    let r := s.step size e
    let r' := WSys.run size r.1 t
    (r'.1, r.2 :: r'.2)

/-- A new queue. -/
def WSys.new (cfg : Config) : WSys := { q := QInner.empty cfg, db := DB.empty, chan := [], batch := [] }

end Verif.Queue
