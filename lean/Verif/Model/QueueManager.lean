import Verif.Model.QueueStore

/-!
# Model of the queue manager: several queues and their files

`/repo/src/brokers/queue/manager.rs`: warm start `52-98`, `build_queue` `104-148`, `create_queue` `238-258`,
`delete_queue` `260-278`, look-up of the queue in every other call.

Simplifications.  Requests on one queue are atomic (their storage operations reach the writer in order, see
`Verif.Model.QueueRace` for the rest), and so are `create_queue` and `delete_queue`.  A queue's database file is
a value of type `DB` (SQLite's `-wal` and `-shm` files belong to it); the configuration file holds a
`Config` (writing it as JSON and reading it back is assumed to be the identity).  All queues are
recovered at the same clock reading.  The data directory has no subdirectories, so that the file of a queue whose name contains `/`
cannot be opened; names that lead back into the directory or out of it (`./a`, `../a`, `/a`) are treated like these (C61, C64 have the
files of such names).
-/

namespace Verif.Queue

/-- A queue in memory: `manager.rs:26-31` `QueueShared`; `pending` as in `Sys`. -/
structure Live where
  q : QInner
  pending : List StorageOp
  deriving DecidableEq, Repr

/-- The manager's map and the two kinds of files in the data directory, by file name. -/
structure Mgr where
  live : List (Str × Live)
  dbs : List (Str × DB)
  cfgs : List (Str × Config)
  deriving DecidableEq, Repr

/-- `".db"`. -/
def dotDb : Str := [46, 100, 98]

/-- `".config.json"`. -/
def dotConfig : Str := [46, 99, 111, 110, 102, 105, 103, 46, 106, 115, 111, 110]

/-- `manager.rs:106` -/
def dbFile (n : Str) : Str := n ++ dotDb

/-- `manager.rs:247`, `manager.rs:79` -/
def cfgFile (n : Str) : Str := n ++ dotConfig

/-- Writing or creating a file of the data directory (`manager.rs:250`, `persistence.rs:65`, `135`): with a name that contains `/` it
fails, which is logged or ignored. -/
def put {α : Type} (files : List (Str × α)) (f : Str) (v : α) : List (Str × α) := if f.contains 47 then files else mset files f v

/-- Removes the reversed ".db" from the front as often as it occurs. -/
def trimRev : Str → Str
  | a :: b :: c :: t => if a = 98 ∧ b = 100 ∧ c = 46 then trimRev t else a :: b :: c :: t
  | s => s

/-- `str::trim_end_matches(".db")` (`manager.rs:77`): removes the suffix as often as it occurs. -/
def trimDb (s : Str) : Str := (trimRev s.reverse).reverse

/-- `manager.rs:104-148` `build_queue`: opens (creating it if necessary) the database file and recovers. -/
def Mgr.build (s : Mgr) (n : Str) (cfg : Config) (now : Nat) : Mgr :=
  let db := (mget s.dbs (dbFile n)).getD DB.empty
  { s with dbs := put s.dbs (dbFile n) db, live := mset s.live n { q := recover cfg now db, pending := [] } }

/-- One iteration of the warm start (`manager.rs:73-93`). -/
def Mgr.warm (dflt : Config) (now : Nat) (s : Mgr) (file : Str) : Mgr :=
  let n := trimDb file
  s.build n ((mget s.cfgs (cfgFile n)).getD dflt) now

/-- What can happen. -/
inductive MEvent where
  | create (n : Str) (visibilityTimeout maxRetries : Option Nat) (now : Nat)
  | delete (n : Str)
  | exist (n : Str)
  | op (n : Str) (o : Op)
  | commit (n : Str) (k : Nat)
  | restart (now : Nat)
  deriving DecidableEq, Repr

/-- Answers. -/
inductive MAns where
  | ok
  | notFound
  | bool (b : Bool)
  | out (o : Out)
  | none
  deriving DecidableEq, Repr

/-- The answer of each call when the queue does not exist: push `manager.rs:281-282`, pop `297`, ack `317-320`,
nack `335-338`, consume `374-375`, peek `459-460`, replay `468-469`, delete `496-497`, purge `513-514`.  The timeout
task and the snapshot only visit existing queues. -/
def missing : Op → MAns
  | .push .. => .notFound
  | .pop _ => .out (.msgs [])
  | .consume .. => .notFound
  | .ack _ => .bool false
  | .nack .. => .bool false
  | .tick .. => .none
  | .peekDlq .. => .notFound
  | .moveToQueue _ => .notFound
  | .deleteDlq _ => .notFound
  | .purgeDlq => .notFound
  | .counters => .none

/-- One event; `dflt` is the server's own configuration (used for options the client leaves out). -/
def Mgr.step (dflt : Config) (s : Mgr) : MEvent → Mgr × MAns
  | .create n vt mr now =>
    match mget s.live n with
    | some _ => (s, .ok)
    | none =>
      let cfg := Config.fromOptions vt mr dflt
      (({ s with cfgs := put s.cfgs (cfgFile n) cfg } : Mgr).build n cfg now, .ok)
  | .delete n =>
    ({ live := mdel s.live n, dbs := mdel s.dbs (dbFile n), cfgs := mdel s.cfgs (cfgFile n) }, .ok)
  | .exist n => (s, .bool (mhas s.live n))
  | .op n o =>
    match mget s.live n with
    | none => (s, missing o)
    | some l =>
      let r := Queue.step l.q o
      ({ s with live := mset s.live n { q := r.1, pending := l.pending ++ r.2.2 } }, .out r.2.1)
  | .commit n k =>
    match mget s.live n with
    | none => (s, .none)
    | some l =>
      ({ s with
          live := mset s.live n { l with pending := l.pending.drop k }
          dbs := put s.dbs (dbFile n) (execAll ((mget s.dbs (dbFile n)).getD DB.empty) (l.pending.take k)) }, .none)
  | .restart now =>
    ((mkeys s.dbs).foldl (Mgr.warm dflt now) { s with live := [] }, .none)

def Mgr.run (dflt : Config) (s : Mgr) : List MEvent → Mgr × List MAns
  | [] => (s, [])
  | e :: t =>
    let r := s.step dflt e
    let r' := Mgr.run dflt r.1 t
    (r'.1, r.2 :: r'.2)

/-- A server started with an empty data directory. -/
def Mgr.new : Mgr := { live := [], dbs := [], cfgs := [] }

end Verif.Queue
