import Verif.Model.Engine
import Verif.Model.StreamCrash

/-!
# Model of a crash of the whole process

`/repo/src/lib.rs:26-40` `NexoEngine::new` on what the last process left on the disk.
-/

namespace Verif.Rpc

open Verif Verif.Wire Verif.Sdk

/-- `lib.rs:27-34`: the four brokers start one after the other, from the disk alone.  `store/manager.rs` `new`: the store has no disk and
starts empty; `queue/manager.rs:52-98` (`now`: the wall clock in milliseconds); `stream/manager.rs:444-514`; `pub-sub/manager.rs:25-103` (`t`: the
monotonic clock, `u`: the wall clock in seconds).  Simplified as in `Model/QueueManager.lean`, `Model/StreamCrash.lean` and
`Model/PubSub.lean`.  What was put into channels, and the counters of operations, are not the server's. -/
def Engine.crash (c : Conf) (lossy : Bytes → Str) (now t u : Nat) (e : Engine) : Engine where
  store := []
  queues := { e.queues with mgr := (e.queues.mgr.step c.queue (.restart now)).1 }
  streams := e.streams.crash c.stream.crc lossy
  hub := { e.hub with st := PubSub.boot e.hub.st.db t u }

/-- What happens to the engine besides commands: a background task takes a step, or the process ends, at any moment, and starts again. -/
inductive Fate where
  | task (x : Task)
  | crash (now t u : Nat)

/-- Either of them. -/
def Engine.fate (c : Conf) (lossy : Bytes → Str) (x : Fate) (e : Engine) : Engine :=
  match x with
  | .task x => Engine.tick c x e
  | .crash now t u => e.crash c lossy now t u

/-- The server with crashes.  (That connections break with a crash and that their unfinished requests are never carried out is not
required: it is one of the runs in which they just do not come.) -/
def mortalServer (c : Conf) (lossy : Bytes → Str) (max : Nat) (sd : Serde) (parseError unsupported : Str) : Server Engine Fate where
  max := max
  sd := sd
  exec := Engine.exec c
  tick := Engine.fate c lossy
  parseError := parseError
  unsupported := unsupported

end Verif.Rpc
