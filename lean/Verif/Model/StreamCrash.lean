import Verif.Model.StreamRpc

/-!
# Model of a crash of the stream broker

`/repo/src/brokers/stream/manager.rs:444-514`.
-/

namespace Verif.Rpc

open Verif Verif.Wire Verif.Sdk
open Verif.Stream (Topic)

/-- The name of an entry of a directory: one part, and neither `.` nor `..`. -/
def isEntry (n : Str) : Bool := !n.contains 47 && n != [] && n != [46] && n != [46, 46]

/-- `manager.rs:444-482` `bootstrap_from_disk` with `434-442` `load_topic_config` and `484-514` `build_topic_shared`: the server stops and
starts again, and every topic is rebuilt from its directory.  Simplified: the directory of a topic that exists is there with its
`config.json`, and that of a deleted topic is gone (`Model/StreamLife.lean` has the rest).  Only the directories that lie directly in the
data directory are looked at, so that a topic whose name has several parts, or is not a file name, is not found; a directory that is there
only because such a topic lies in it is found as a topic of its own (`Model/TopicDirs.lean` has this).  `lossy` is `String::from_utf8_lossy`; the counter of commands is not the server's. -/
def Streams.crash (crc : Bytes → Nat) (lossy : Bytes → Str) (s : Streams) : Streams :=
  { s with topics := (s.topics.filter (fun e => isEntry e.1)).map (fun e => (e.1, e.2.restart crc lossy)) }

end Verif.Rpc
