import Verif.Model.Queue

/-!
# Model of the queue's storage

`/repo/src/brokers/queue/domain/persistence.rs` and the recovery in
`/repo/src/brokers/queue/manager.rs:104-148`.

The two SQLite tables are association lists in `rowid` order: a new row gets the largest `rowid`, so it
is last; a full-table `SELECT` without `ORDER BY` reads in that order.  SQLite itself is assumed
correct: a committed transaction survives a crash of the process, an uncommitted one leaves no trace.
`u64 as i64` followed by `i64 as u64` is the identity.
-/

namespace Verif.Queue

/-- A row of table `queue` (`persistence.rs:243-253`); the key is the `id` column. -/
structure Row where
  payload : Bytes
  priority : Nat
  visibleAt : Nat
  attempts : Nat
  createdAt : Nat
  deriving DecidableEq, Repr

/-- The database of one queue: tables `queue` and `dlq_messages` (`persistence.rs:243-269`). -/
structure DB where
  main : List (Id × Row)
  dlq : List (Id × DlqMsg)
  deriving DecidableEq, Repr

def DB.empty : DB := { main := [], dlq := [] }

/-- The columns written for a message (`persistence.rs:353-364`). -/
def Msg.row (m : Msg) : Row :=
  { payload := m.payload, priority := m.priority, visibleAt := m.visibleAt, attempts := m.attempts,
    createdAt := m.createdAt }

/-- `INSERT`: fails on a duplicate primary key, leaving the table as it was (the error is logged,
`persistence.rs:210-214`). -/
def insertRow {V : Type} (t : List (Id × V)) (id : Id) (v : V) : List (Id × V) :=
  if mhas t id then t else t ++ [(id, v)]

/-- `persistence.rs:350-441` `exec_op`. -/
def execOp (db : DB) : StorageOp → DB
  | .insert m => { db with main := insertRow db.main m.id m.row }
  | .delete id => { db with main := mdel db.main id }
  | .updateState id visibleAt attempts =>
    { db with main := mupd db.main id (fun r => { r with visibleAt := visibleAt, attempts := attempts }) }
  | .insertDlq m => { db with dlq := insertRow db.dlq m.id m }
  | .deleteDlq id => { db with dlq := mdel db.dlq id }
  | .moveToDlq id m => { main := mdel db.main id, dlq := insertRow db.dlq m.id m }
  | .moveToMain id m =>
    { main := insertRow db.main m.id { m.row with visibleAt := 0, attempts := 0 }, dlq := mdel db.dlq id }
  | .purgeDlq => { db with dlq := [] }

/-- `persistence.rs:201-221` `flush_batch`: all operations of a batch in one transaction (which is
assumed to start and commit; see `DESIGN.md` for what happens when the commit fails). -/
def execAll (db : DB) (ops : List StorageOp) : DB := ops.foldl execOp db

/-- `persistence.rs:275-315` `load_all_messages`, one row; the clock is an input. -/
def loadRow (now : Nat) (id : Id) (r : Row) : Msg :=
  { id, payload := r.payload, priority := r.priority, attempts := r.attempts, createdAt := r.createdAt,
    visibleAt := r.visibleAt, failure := none,
    state := if r.visibleAt > now ∧ r.attempts > 0 then .inFlight r.visibleAt else .ready }

/-- `manager.rs:116-133`: rebuild the in-memory queue from the tables. -/
def recover (cfg : Config) (now : Nat) (db : DB) : QInner :=
  { state := db.main.foldl (fun s e => s.push (loadRow now e.1 e.2)) QState.new
    dlq := db.dlq.foldl (fun d e => dlqPush d e.2) []
    cfg }

/-- A queue with its database: `pending` are the storage operations sent to the writer and not yet
committed (the channel and the writer's batch, `persistence.rs:157-198`). -/
structure Sys where
  q : QInner
  db : DB
  pending : List StorageOp

/-- What can happen to a queue.  `commit n`: the writer commits its first `n` outstanding operations;
`restart now`: the process dies (losing memory, channel and batch) and starts again at time `now`. -/
inductive Event where
  | op (o : Op)
  | commit (n : Nat)
  | restart (now : Nat)
  deriving DecidableEq, Repr

/-- The request's storage operations reach the writer in the order of the state changes.  This holds
when requests on the queue do not overlap; see `Verif.Model.QueueRace` for overlapping ones. -/
def Sys.step (s : Sys) : Event → Sys × Option Out
  | .op o =>
    let r := Queue.step s.q o
    ({ s with q := r.1, pending := s.pending ++ r.2.2 }, some r.2.1)
  | .commit n => ({ s with db := execAll s.db (s.pending.take n), pending := s.pending.drop n }, none)
  | .restart now => ({ s with q := recover s.q.cfg now s.db, pending := [] }, none)

/-- A history of events. -/
def Sys.run (s : Sys) : List Event → Sys × List (Option Out)
  | [] => (s, [])
  | e :: t =>
    let r := s.step e
    let r' := Sys.run r.1 t
    (r'.1, r.2 :: r'.2)

/-- A new queue (`manager.rs:238-258` `create_queue`). -/
def Sys.new (cfg : Config) : Sys := { q := QInner.empty cfg, db := DB.empty, pending := [] }

end Verif.Queue
