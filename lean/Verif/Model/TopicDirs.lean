import Verif.Model.Paths

/-!
# Model of the directories of stream topics

Which topics there are, and which directories, when topics are created and deleted and the server starts again:
`/repo/src/brokers/stream/manager.rs:95-152` `create_topic`, `delete_topic`, `414-421` `exists`, `423-425` `get_topic`, `444-482`
`bootstrap_from_disk`, `484-489` `build_topic_shared`, and of the storage task (`domain/persistence.rs`) `189-195` `DropTopic` and `208-216`.

Simplifications.  The names are paths relative to the data directory (an absolute name or one with `..` leads elsewhere: C61).  Every request
is one step (`Model/StreamLife.lean` has their sections).  Directories can be created and removed; that a directory cannot be created where
a file of the same name lies (a topic `a/config.json` beside the topic `a`) is left out.
-/

namespace Verif.Dirs

open Verif

structure St where
  /-- the keys of the manager's map -/
  topics : List Str := []
  /-- the directories below the data directory, by their parts -/
  dirs : List (List Str) := []
  deriving DecidableEq, Repr

/-- `PathBuf::join` and the resolution of the path, seen from the data directory. -/
def parts (n : Str) : List Str := (Paths.split n).foldl Paths.enter []

/-- `create_dir_all`: the directory and all on the way to it. -/
def makeAll (dirs : List (List Str)) (p : List Str) : List (List Str) :=
  (List.range p.length).map (fun k => p.take (k + 1)) ++ dirs

/-- `metadata(path).is_dir()`; the data directory itself is there. -/
def isDir (dirs : List (List Str)) (p : List Str) : Bool := p = [] || dirs.contains p

/-- What can happen. -/
inductive Ev where
  | create (n : Str)
  | delete (n : Str)
  /-- the storage task sees a topic for the first time -/
  | write (n : Str)
  /-- the process ends, at any moment, and starts again -/
  | restart
  deriving DecidableEq, Repr

/-- The name of an entry of the data directory (`manager.rs:455-465`: `read_dir`, `is_dir`, `file_name`). -/
def entry : List Str → Option Str
  | [x] => some x
  | _ => none

def step (s : St) : Ev → St
  | .create n =>
    -- `manager.rs:98-100`, `102-135`
    if n ∈ s.topics then s else { topics := n :: s.topics, dirs := makeAll s.dirs (parts n) }
  | .delete n =>
    -- `manager.rs:141-142`, `persistence.rs:193-195` (`remove_dir_all`)
    { topics := s.topics.filter (· ≠ n)
      dirs := if n ∈ s.topics ∨ isDir s.dirs (parts n) then s.dirs.filter (fun d => !(parts n).isPrefixOf d) else s.dirs }
  | .write n =>
    -- `persistence.rs:210-216`
    if n ∈ s.topics then { s with dirs := makeAll s.dirs (parts n) } else s
  | .restart =>
    -- `manager.rs:444-482`
    { s with topics := s.dirs.filterMap entry }

def run (s : St) (es : List Ev) : St := es.foldl step s

/-- `manager.rs:414-421`: the answer to `exists`. -/
def answersExists (s : St) (n : Str) : Bool := decide (n ∈ s.topics) || isDir s.dirs (parts n)

/-- `manager.rs:154`, `206` and the like: whether a publish, fetch or join finds its topic. -/
def serves (s : St) (n : Str) : Bool := decide (n ∈ s.topics)

end Verif.Dirs
