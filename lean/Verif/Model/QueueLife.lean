import Verif.Model.QueueManager

/-!
# Model of overlapping requests that create, delete and use one queue

`/repo/src/brokers/queue/manager.rs`: `create_queue` `238-258` (runs in one piece under the map entry's lock), `delete_queue`
`260-278` (takes the queue out of the map, waits for the storage task to end, removes the files), every other request (looks the
queue up, then works on the object it found even if the queue is deleted meanwhile); `domain/persistence.rs`: `QueueStore::new`
`61-88` (creates file and tables; the storage task opens the file itself, later), `execute` `107-113`, `shutdown` `116-122`,
`run_writer` `129-200`; warm start `manager.rs:52-98`.

One queue name; other names have other files (C31, C36).  Simplifications.  The database file, `-wal` and `-shm` are one file:
they are created and removed together.  Creating the tables and reading them back when a queue is built is one step.  Requests on
the queue's object are atomic (see `Verif.Model.QueueRace`).  The storage task commits a number of outstanding operations at a time;
transactions do not fail (see `Verif.Model.QueueWriter`).  A file that is removed while it is open can still be written, but nobody
finds it again (POSIX).
-/

namespace Verif.Queue

/-- A queue object: `manager.rs:26-31` `QueueShared` with its `QueueStore` (`persistence.rs:54-58`).  `file`: the file the storage
task has opened; `closed`: the sender is gone (`persistence.rs:117`). -/
structure Shared where
  q : QInner
  pending : List StorageOp
  file : Option Nat
  closed : Bool
  deriving DecidableEq, Repr

/-- A database file; `tables`: the tables exist (`persistence.rs:233-273` `init_db`). -/
structure DbFile where
  tables : Bool
  db : DB
  deriving DecidableEq, Repr

/-- Where a delete request stands (`manager.rs:260-278`): the queue is out of the map; the sender has been dropped and the end of
the storage task is awaited; the database file is to be removed; the configuration file is to be removed. -/
inductive DelStage where
  | out (k : Nat)
  | wait (k : Nat)
  | files
  | cfg
  deriving DecidableEq, Repr

/-- Everything there is about one queue name: the object in the map, all objects of this process, all files (linked or not), the
file that has the name, the configuration file, the unanswered deletes by request number. -/
structure Life where
  live : Option Nat
  objs : List (Nat × Shared)
  nextObj : Nat
  files : List (Nat × DbFile)
  nextFile : Nat
  path : Option Nat
  cfg : Option Config
  deletes : List (Nat × DelStage)
  deriving DecidableEq, Repr

/-- What can happen.  `call o`: a request that looks the queue up; `late k o`: a request that looked it up before it was deleted
and found object `k`; `delete r` / `deleteOn r`: delete request number `r` begins / goes on to its next stage; `opens k` / `commits k n`:
the storage task of object `k` opens its file / commits `n` operations. -/
inductive LEvent where
  | create (visibilityTimeout maxRetries : Option Nat) (now : Nat)
  | delete (r : Nat)
  | deleteOn (r : Nat)
  | exist
  | call (o : Op)
  | late (k : Nat) (o : Op)
  | opens (k : Nat)
  | commits (k : Nat) (n : Nat)
  | restart (now : Nat)
  deriving DecidableEq, Repr

/-- The file with the queue's name, created if there is none (`Connection::open`). -/
def Life.open (s : Life) : Life × Nat :=
  match s.path with
  | some f => (s, f)
  | none => ({ s with path := some s.nextFile, nextFile := s.nextFile + 1, files := mset s.files s.nextFile ⟨false, DB.empty⟩ }, s.nextFile)

/-- `manager.rs:104-148` `build_queue`: file, tables, recovery, a storage task that has not opened the file yet. -/
def Life.build (s : Life) (cfg : Config) (now : Nat) : Life :=
  let o := s.open
  let db := ((mget o.1.files o.2).map DbFile.db).getD DB.empty
  { o.1 with
    files := mset o.1.files o.2 ⟨true, db⟩
    objs := mset o.1.objs o.1.nextObj ⟨recover cfg now db, [], none, false⟩
    nextObj := o.1.nextObj + 1
    live := some o.1.nextObj }

/-- A request on an object: changes it, and sends its storage operations unless the sender is gone (`persistence.rs:106-113`). -/
def Shared.op (x : Shared) (o : Op) : Shared :=
  let r := Queue.step x.q o
  { x with q := r.1, pending := if x.closed then x.pending else x.pending ++ r.2.2 }

/-- Statements on a file without tables fail, one by one (`persistence.rs:210-214`). -/
def DbFile.exec (f : DbFile) (ops : List StorageOp) : DbFile :=
  if f.tables then { f with db := execAll f.db ops } else f

/-- The storage task has nothing left to do and returns (`persistence.rs:178-185`). -/
def Shared.drained (x : Shared) : Bool := x.closed && x.pending.isEmpty && x.file.isSome

/-- The next stage of a delete. -/
def Life.deleteOn (s : Life) (r : Nat) : Life × Option MAns :=
  match mget s.deletes r with
  | none => (s, none)
  | some (.out k) =>
    ({ s with objs := mupd s.objs k (fun x => { x with closed := true }), deletes := mset s.deletes r (.wait k) }, none)
  | some (.wait k) =>
    if ((mget s.objs k).map Shared.drained).getD true then ({ s with deletes := mset s.deletes r .files }, none) else (s, none)
  | some .files => ({ s with path := none, deletes := mset s.deletes r .cfg }, none)
  | some .cfg => ({ s with cfg := none, deletes := mdel s.deletes r }, some .ok)

/-- One event; the answer belongs to the request that is answered by it. -/
def Life.step (dflt : Config) (s : Life) : LEvent → Life × Option MAns
  | .create vt mr now =>
    match s.live with
    | some _ => (s, some .ok)
    | none =>
      let c := Config.fromOptions vt mr dflt
      (({ s with cfg := some c } : Life).build c now, some .ok)
  | .delete r =>
    if mhas s.deletes r then (s, none) else
      match s.live with
      | some k => ({ s with live := none, deletes := mset s.deletes r (.out k) }, none)
      | none => ({ s with deletes := mset s.deletes r .files }, none)
  | .deleteOn r => s.deleteOn r
  | .exist => (s, some (.bool s.live.isSome))
  | .call o =>
    match s.live with
    | none => (s, some (missing o))
    | some k =>
      match mget s.objs k with
      | none => (s, some (missing o))
      | some x => ({ s with objs := mset s.objs k (x.op o) }, some (.out (Queue.step x.q o).2.1))
  | .late k o =>
    if s.live = some k then (s, none) else
      match mget s.objs k with
      | none => (s, none)
      | some x => ({ s with objs := mset s.objs k (x.op o) }, some (.out (Queue.step x.q o).2.1))
  | .opens k =>
    match mget s.objs k with
    | none => (s, none)
    | some x =>
      match x.file with
      | some _ => (s, none)
      | none => ({ s.open.1 with objs := mset s.open.1.objs k { x with file := some s.open.2 } }, none)
  | .commits k n =>
    match mget s.objs k with
    | none => (s, none)
    | some x =>
      match x.file with
      | none => (s, none)
      | some f =>
        ({ s with
            objs := mset s.objs k { x with pending := x.pending.drop n }
            files := mupd s.files f (fun d => d.exec (x.pending.take n)) }, none)
  | .restart now =>
    let s' : Life := { s with live := none, objs := [], deletes := [] }
    match s.path with
    | none => (s', none)
    | some _ => (s'.build (s.cfg.getD dflt) now, none)

def Life.run (dflt : Config) (s : Life) : List LEvent → Life × List (Option MAns)
  | [] => (s, [])
  | e :: t =>
    let r := s.step dflt e
    let r' := Life.run dflt r.1 t
    (r'.1, r.2 :: r'.2)

/-- No such queue, no files. -/
def Life.new : Life :=
  { live := none, objs := [], nextObj := 0, files := [], nextFile := 0, path := none, cfg := none, deletes := [] }

end Verif.Queue
