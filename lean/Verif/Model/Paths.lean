import Verif.Base.Basic

/-!
# Model of the file names

Where the server puts the files of a stream topic and of a queue, given the name that a client has chosen:
`/repo/src/brokers/stream/manager.rs:102,141,419,436,485`, `/repo/src/brokers/stream/domain/persistence.rs:176-193,208,223,
249,303,448,460,492-493`, `/repo/src/brokers/queue/manager.rs:79,106,248,267-270`.

`PathBuf::join` and the resolution of paths are those of Unix.  Simplifications: no symbolic links (the resolution of
`..` is lexical), and names with a NUL byte or a component of more than 255 bytes, for which the system calls fail, are
treated like others.
-/

namespace Verif.Paths

open Verif

def slash : UInt8 := 0x2F

/-- Split at every `/`. -/
def split : Str → List Str
  | [] => [[]]
  | b :: s =>
    if b = slash then [] :: split s
    else
      match split s with
      | [] => [[b]]
      | c :: cs => (b :: c) :: cs

def dot : Str := [0x2E]
def dotdot : Str := [0x2E, 0x2E]

/-- One component of a path, seen from a directory (`path_resolution(7)`). -/
def enter (dir : List Str) (c : Str) : List Str :=
  if c = [] ∨ c = dot then dir else if c = dotdot then dir.dropLast else dir ++ [c]

/-- `Path::is_absolute` on Unix. -/
def isAbsolute (p : Str) : Bool := p.head? == some slash

/-- The directory or file that a path names in a process whose working directory is `cwd`: the names on the way from
the root. -/
def resolve (cwd : List Str) (p : Str) : List Str :=
  (split p).foldl enter (if isAbsolute p then [] else cwd)

/-- `PathBuf::join` (`PathBuf::push`): an absolute path replaces everything. -/
def join (base p : Str) : Str :=
  if isAbsolute p then p
  else if base = [] ∨ base.getLast? = some slash then base ++ p
  else base ++ [slash] ++ p

/-- `stream/manager.rs:102` etc.: the directory of a topic. -/
def topicDir (base name : Str) : Str := join base name

/-- What the server does to the file system in the name of a client. -/
inductive Access where
  /-- creates, reads, writes or renames this file or directory -/
  | use (path : Str)
  /-- removes this file -/
  | unlink (path : Str)
  /-- removes this directory and all that is in it -/
  | removeAll (path : Str)
  deriving DecidableEq, Repr

def Access.path : Access → Str
  | .use p => p
  | .unlink p => p
  | .removeAll p => p

/-- `config.json`, `groups.log`, `groups.log.tmp` (`stream/manager.rs:112`, `persistence.rs:460`, `492`). -/
def configJson : Str := [0x63, 0x6F, 0x6E, 0x66, 0x69, 0x67, 0x2E, 0x6A, 0x73, 0x6F, 0x6E]
def groupsLog : Str := [0x67, 0x72, 0x6F, 0x75, 0x70, 0x73, 0x2E, 0x6C, 0x6F, 0x67]
def groupsTmp : Str := groupsLog ++ [0x2E, 0x74, 0x6D, 0x70]
/-- `.log`, `.db`, `.db-wal`, `.db-shm`, `.config.json`. -/
def dotLog : Str := [0x2E, 0x6C, 0x6F, 0x67]
def dotDb : Str := [0x2E, 0x64, 0x62]
def dotWal : Str := dotDb ++ [0x2D, 0x77, 0x61, 0x6C]
def dotShm : Str := dotDb ++ [0x2D, 0x73, 0x68, 0x6D]
def dotConfig : Str := 0x2E :: configJson

/-- Decimal digits, most significant first (`format!("{}.log", first_seq)`, `persistence.rs:249`). -/
def digitsN : Nat → Nat → Str
  | 0, _ => []
  | k + 1, n => (if n < 10 then [] else digitsN k (n / 10)) ++ [UInt8.ofNat (0x30 + n % 10)]

def digits (n : Nat) : Str := digitsN (n + 1) n

/-- `str::parse::<u64>` without the sign: digits only, and the number must fit. -/
def parseDigits : Nat → Str → Option Nat
  | acc, [] => some acc
  | acc, b :: s =>
    if 0x30 ≤ b.toNat ∧ b.toNat ≤ 0x39 ∧ acc * 10 + (b.toNat - 0x30) < 2 ^ 64 then parseDigits (acc * 10 + (b.toNat - 0x30)) s
    else none

/-- `str::parse::<u64>`: a `+` may come first, and there must be a digit. -/
def parseU64 (s : Str) : Option Nat :=
  match s with
  | 0x2B :: b :: r => parseDigits 0 (b :: r)
  | b :: r => parseDigits 0 (b :: r)
  | [] => none

/-- `persistence.rs:470-487` `find_segments`: which files are taken for segments, and with which number. -/
def segmentNumber (fname : Str) : Option Nat :=
  if dotLog.isSuffixOf fname = true ∧ fname ≠ groupsLog then parseU64 (fname.take (fname.length - 4)) else none

/-- Requests that carry a name. -/
inductive Named where
  | createTopic (name : Str)
  | deleteTopic (name : Str)
  /-- `exists` -/
  | topicExists (name : Str)
  /-- publish, fetch, retention, saving of groups: they work on the segment that starts with message `seq` -/
  | topicData (name : Str) (seq : Nat)
  | createQueue (name : Str)
  | deleteQueue (name : Str)
  deriving DecidableEq, Repr

/-- The accesses that a request leads to; `streams` and `queues` are the configured directories. -/
def accesses (streams queues : Str) : Named → List Access
  | .createTopic n =>
    -- `stream/manager.rs:102-123`, `484-489` (recovery reads the directory and its files)
    [.use (topicDir streams n), .use (join (topicDir streams n) configJson), .use (join (topicDir streams n) groupsLog)]
  | .deleteTopic n =>
    -- `stream/manager.rs:141-142`, `persistence.rs:190-193`
    [.use (topicDir streams n), .removeAll (topicDir streams n)]
  | .topicExists n => [.use (topicDir streams n)]
  | .topicData n seq =>
    -- `persistence.rs:208-249`, `302-303`, `182`, `491-493`
    [.use (topicDir streams n), .use (join (topicDir streams n) (digits seq ++ dotLog)),
     .unlink (join (topicDir streams n) (digits seq ++ dotLog)), .use (join (topicDir streams n) groupsTmp),
     .use (join (topicDir streams n) groupsLog)]
  | .createQueue n =>
    -- `queue/manager.rs:248-253`, `106`; SQLite in WAL mode adds `-wal` and `-shm`
    [.use (join queues (n ++ dotConfig)), .use (join queues (n ++ dotDb)), .use (join queues (n ++ dotWal)),
     .use (join queues (n ++ dotShm))]
  | .deleteQueue n =>
    -- `queue/manager.rs:267-275`
    [.unlink (join queues (n ++ dotDb)), .unlink (join queues (n ++ dotWal)), .unlink (join queues (n ++ dotShm)),
     .unlink (join queues (n ++ dotConfig))]

end Verif.Paths
