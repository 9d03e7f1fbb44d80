import Verif.Model.Rpc
import Verif.Model.QueueManager

/-!
# Model of the queue broker's part of the dispatcher

`/repo/src/brokers/queue/tcp.rs:194-258` `handle`: which call of the queue manager (`Model/QueueManager.lean`) a parsed command
is, and which answer its result becomes.

An execution is one step, at the time of the manager's critical section.  For `consume_batch` (`manager.rs:373-424`) that is the last
of its attempts: the ones before took nothing and left the queue as it was, and while it waits after the last one (until
`manager.rs:420`) its answer is fixed (`Conn.answered`).  A request that looked its queue up before a `delete` removed the queue and
works on it afterwards counts as carried out before the `delete`.  The ids of `Uuid::new_v4` (`queue.rs:45`) are `supply 0`,
`supply 1`, …, one for each push (also for a push to a queue that does not exist, where the code makes none: numbers may be left out).
-/

namespace Verif.Rpc

open Verif Verif.Wire Verif.Sdk

/-- An id in the 16 bytes of `Uuid::as_bytes`. -/
def uuidBytes (id : Queue.Id) : Bytes := be64 (id / 2 ^ 64) ++ be64 id

/-- ASCII text. -/
def ascii (s : String) : Str := s.toList.map (fun c => UInt8.ofNat c.toNat)

/-- The queue broker's state, and how many ids it has made. -/
structure Queues where
  mgr : Queue.Mgr := .new
  made : Nat := 0
  deriving DecidableEq

/-- `tcp.rs:202-257`, the calls: the manager's call for a command; `none` for the commands of the other brokers.  `batch` is
`default_batch_size` (`manager.rs:377`). -/
def queueCall (batch : Nat) (fresh : Queue.Id) (now : Nat) : Cmd → Option Queue.MEvent
  | .qCreate q opts => some (.create q opts.visibilityTimeoutMs opts.maxRetries now)
  | .qPush q opts payload => some (.op q (.push fresh payload (opts.priority.getD 0) now))
  | .qConsume q opts => some (.op q (.consume (opts.batchSize.getD batch) now))
  | .qAck id q => some (.op q (.ack (beVal id)))
  | .qNack id q reason => some (.op q (.nack (beVal id) reason now))
  | .qExists q => some (.exist q)
  | .qDelete q => some (.delete q)
  | .qPeek q limit offset => some (.op q (.peekDlq limit offset))
  | .qMove q id => some (.op q (.moveToQueue (beVal id)))
  | .qDelDlq q id => some (.op q (.deleteDlq (beVal id)))
  | .qPurge q => some (.op q .purgeDlq)
  | _ => none

/-- `manager.rs:282`, `manager.rs:375`: the text for a queue that is not there. -/
def noQueue (q : Str) : Str := ascii "Queue '" ++ q ++ ascii "' not found. Create it first."

/-- `manager.rs:460`, `469`, `497`, `514`: the same for the dead-letter calls. -/
def noQueueDlq (q : Str) : Str := ascii "Queue '" ++ q ++ ascii "' not found"

/-- `tcp.rs:202-257`, the answers (`none`: the task panics, `queue.rs:142`). -/
def queueAnswer : Cmd → Queue.MAns → Option Response
  | .qCreate .., _ => some .ok
  | .qPush .., .out _ => some .ok
  | .qPush q .., _ => some (.error (noQueue q))
  | .qConsume .., .out (.msgs l) => some (.data (wireConsume (l.map (fun m => (uuidBytes m.id, m.payload)))))
  | .qConsume .., .out _ => none
  | .qConsume q _, _ => some (.error (noQueue q))
  | .qAck .., .out (.bool true) => some .ok
  | .qAck .., _ => some (.error (ascii "ACK failed"))
  | .qNack .., .out (.bool true) => some .ok
  | .qNack .., _ => some (.error (ascii "NACK failed"))
  | .qExists _, .bool true => some .ok
  | .qExists _, _ => some (.error (ascii "Queue not found"))
  | .qDelete _, _ => some .ok
  | .qPeek .., .out (.page total l) =>
    some (.data (wirePeek total (l.map (fun d => ⟨uuidBytes d.id, d.payload, d.attempts, d.reason⟩))))
  | .qPeek q .., _ => some (.error (noQueueDlq q))
  | .qMove .., .out (.bool b) => some (.data (wireBool b))
  | .qMove q _, _ => some (.error (noQueueDlq q))
  | .qDelDlq .., .out (.bool b) => some (.data (wireBool b))
  | .qDelDlq q _, _ => some (.error (noQueueDlq q))
  | .qPurge _, .out (.count n) => some (.data (wireCount n))
  | .qPurge q, _ => some (.error (noQueueDlq q))
  | _, _ => some .ok

/-- A call that makes an id (`queue.rs:45`). -/
def makesId : Queue.MEvent → Bool
  | .op _ (.push ..) => true
  | _ => false

/-- `tcp.rs:194-258` `handle`, after parsing; `cfg` is the server's queue configuration. -/
def queueExec (cfg : Queue.Config) (batch : Nat) (supply : Nat → Queue.Id) (now : Nat) (cmd : Cmd) (s : Queues) : Queues × Option Response :=
  match queueCall batch (supply s.made) now cmd with
  | none => (s, some .ok)
  | some e =>
    let r := s.mgr.step cfg e
    ({ mgr := r.1, made := s.made + if makesId e then 1 else 0 }, queueAnswer cmd r.2)

end Verif.Rpc
