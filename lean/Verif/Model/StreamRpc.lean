import Verif.Model.Rpc
import Verif.Model.QueueRpc
import Verif.Model.StreamTopic

/-!
# Model of the stream broker's part of the dispatcher

`/repo/src/brokers/stream/tcp.rs:166-225` `handle`: which sections of the stream manager's code (`Model/StreamTopic.lean`) a parsed
command runs, on which topic, and which answer its result becomes.

A command is carried out in one step, at the time of its last critical section.  What a request did before is a step of the
background (`Streams.background`): a waiting or disk-bound `fetch` is started, tries and is answered by the storage task there, and the
command then picks it up (`Env.pick`) and ends it; or the command runs it from its start to its end.  A `publish` is answered when its
number is assigned (`manager.rs:157-160`); that it hands its record to the storage task (`162`) is a background step, which in the code
comes before the answer.  A request that looked its topic up before a `delete` removed it and works on it afterwards counts as carried out
before the `delete`; a topic is created without files (`Model/StreamLife.lean` has the rest).
-/

namespace Verif.Rpc

open Verif Verif.Wire Verif.Sdk
open Verif.Stream (Topic GErr)

/-- The part of `SystemStreamConfig` that a topic uses (`config.rs`). -/
structure SysStream where
  softLimit : Nat
  maxSegment : Nat
  age : Nat
  bytes : Nat
  maxPending : Nat
  ackWait : Nat
  maxDeliveries : Nat
  deriving DecidableEq

/-- One limit (`topic.rs:31-38`): left out means the default, zero means no limit. -/
def retentionLimit (dflt : Nat) : Option Nat → Option Nat
  | none => some dflt
  | some v => if v = 0 then none else some v

/-- `topic.rs:28-59` `from_options`. -/
def topicCfg (sys : SysStream) (o : StreamOpts) : Stream.Cfg :=
  { softLimit := sys.softLimit, maxSegment := sys.maxSegment
    retention :=
      match o.retention with
      | some (age, bytes) => { maxAge := retentionLimit sys.age age, maxBytes := retentionLimit sys.bytes bytes }
      | none => { maxAge := some sys.age, maxBytes := some sys.bytes }
    maxPending := sys.maxPending, ackWait := sys.ackWait, maxDeliveries := sys.maxDeliveries }

/-- What the commands do not determine: the checksum, the configuration, the client id of a connection (`connection.rs`), and for the
`k`-th command the consumer id made by `add_member` (`group.rs`), the order in which a hash map is iterated, and which `fetch` in progress
it ends (`none`: one that it starts itself), and whether that, if it waits, tries again first; and whether, if it asks for a topic that is
not in memory, it finds a directory under that name (`manager.rs:419-420`, `Model/TopicDirs.lean`). -/
structure Env where
  crc : Bytes → Nat
  sys : SysStream
  conn : Nat → Str
  consumer : Nat → Str
  order : Nat → List Nat
  pick : Nat → Option (Nat × Bool)
  found : Nat → Str → Bool := fun _ _ => false

/-- The stream broker's topics, and how many stream commands have been carried out. -/
structure Streams where
  topics : List (Str × Topic) := []
  count : Nat := 0
  deriving DecidableEq

/-- The topic a command works on; `none` for the commands that create, delete and look for topics, and for those of other brokers. -/
def onTopic : Cmd → Option Str
  | .sPub n _ | .sFetch n _ _ _ _ _ | .sJoin _ n | .sAck n _ _ _ _ | .sSeek n _ _ | .sLeave n _ _ _ => some n
  | _ => none

/-- The `fetch` in progress that a command with the query `q` ends. -/
def picked (t : Topic) (q : Stream.Query) (p : Option (Nat × Bool)) : Option (Nat × Bool) :=
  p.bind (fun x => (mget t.fetches x.1).bind (fun op => if op.query = q then some x else none))

/-- The steps that bring the `fetch` with number `id` to its end: another attempt, or the wait for the storage task, or giving up. -/
def fetchEnd (crc : Bytes → Nat) (t : Topic) (id now : Nat) (again : Bool) : List Stream.Ev :=
  let tries := if again || (mget t.fetches id).any (fun op => decide (op.phase = .ready)) then [Stream.Ev.attempt id now] else []
  let t1 := t.run crc tries
  tries ++ [.giveUp id]
    ++ (if (mget t1.fetches id).any (fun op => decide (op.phase = .disk)) then List.replicate t1.chan.length (.storage now) else [])
    ++ [.finish id now]

/-- `manager.rs:205-256` `fetch`: the steps of the `k`-th command, a fetch with the query `q`, on its topic. -/
def fetchSteps (env : Env) (k now : Nat) (q : Stream.Query) (poll : Bool) (t : Topic) : List Stream.Ev :=
  match picked t q (env.pick k) with
  | some (id, again) => fetchEnd env.crc t id now again
  | none =>
    .fetch q.group q.consumer q.gen q.limit poll
      :: if mhas t.groups q.group then
          fetchEnd env.crc (t.step env.crc (.fetch q.group q.consumer q.gen q.limit poll)).1 t.nextOp now true
        else []

/-- `tcp.rs:176-221`, the calls: the steps of the `k`-th command, which came on connection `l` at `now`, on its topic. -/
def streamSteps (env : Env) (k l now : Nat) (t : Topic) : Cmd → List Stream.Ev
  | .sPub _ payload => [.publish now payload]
  | .sFetch _ group consumer gen limit waitMs => fetchSteps env k now { group, consumer, gen, limit } (decide (waitMs ≠ 0)) t
  | .sJoin group _ => [.join group (env.conn l) (env.consumer k)]
  | .sAck _ group consumer gen seq => [.ack group consumer gen seq]
  | .sSeek _ group toEnd => [.seek group toEnd]
  | .sLeave _ group consumer gen => [.leave group consumer gen (env.order k)]
  | _ => []

/-- The texts of the errors (`manager.rs:212`, `263`, `302-310`, `733`, `group.rs:155-156`, `369-372`); a group that disappears while its
fetch waits for the storage task (`761`) has a text of its own in the code. -/
def errorText (seq : Nat) : GErr → Str
  | .fenced => ascii "FENCED"
  | .notMember => ascii "NOT_MEMBER"
  | .notOwner => ascii "NOT_OWNER"
  | .notPending => ascii "seq " ++ ascii (toString seq) ++ ascii " not pending"
  | .groupNotFound => ascii "Group not found"
  | .diskReadFailed => ascii "Disk read failed"

/-- The stream message of the wire format. -/
def wireMsg (m : Stream.Msg) : SMsg := ⟨m.seq, m.timestamp, m.payload⟩

/-- `tcp.rs:186-189`: the answer to a fetch. -/
def fetchAnswer : Except GErr (List Stream.Msg) → Response
  | .ok ms => .data (wireFetch (ms.map wireMsg))
  | .error e => .error (errorText 0 e)

/-- The result of a step that ends a fetch. -/
def fetchResult : Stream.Out → Option (Except GErr (List Stream.Msg))
  | .fetched _ r => some r
  | _ => none

/-- `tcp.rs:176-221`, the answers, from what the steps returned; `next` is the number a publish assigns. -/
def streamAnswer (next : Nat) (outs : List Stream.Out) : Cmd → Option Response
  | .sPub .. => some (.data (wireSeq next))
  | .sFetch .. => (outs.findSome? fetchResult).map fetchAnswer
  | .sJoin .. =>
    match outs with
    | [.joined floor consumer gen] => some (.data (wireJoin floor gen consumer))
    | _ => none
  | .sAck _ _ _ _ seq =>
    match outs with
    | [.ok] => some .ok
    | [.err e] => some (.error (errorText seq e))
    | _ => none
  | .sLeave .. =>
    match outs with
    | [.ok] => some .ok
    | [.err e] => some (.error (errorText 0 e))
    | _ => none
  | _ => some .ok

/-- What the steps of a history return. -/
def Outs (crc : Bytes → Nat) (t : Topic) : List Stream.Ev → List Stream.Out
  | [] => []
  | e :: es => (t.step crc e).2 :: Outs crc (t.step crc e).1 es

/-- `tcp.rs:166-225` `handle`, after parsing. -/
def streamExec (env : Env) (l now : Nat) (cmd : Cmd) (s : Streams) : Streams × Option Response :=
  match cmd with
  | .sCreate n o =>
    -- `manager.rs:95-136`
    ({ topics := if mhas s.topics n then s.topics else mset s.topics n (Topic.fresh env.crc (topicCfg env.sys o)), count := s.count + 1 },
     some .ok)
  | .sDelete n => ({ topics := mdel s.topics n, count := s.count + 1 }, some .ok)
  | .sExists n =>
    -- `manager.rs:414-421`
    ({ s with count := s.count + 1 }, if mhas s.topics n || env.found s.count n then some .ok else some (.error (ascii "Stream not found")))
  | cmd =>
    match onTopic cmd with
    | none => (s, some .ok)
    | some n =>
      match mget s.topics n with
      | none => ({ s with count := s.count + 1 }, some (.error (ascii "Topic not found")))
      | some t =>
        let es := streamSteps env s.count l now t cmd
        ({ topics := mset s.topics n (t.run env.crc es), count := s.count + 1 }, streamAnswer t.log.next (Outs env.crc t es) cmd)

/-- The steps that are not a command's last one: the other sections of requests, the background tasks, the storage task, and
connections that close (`manager.rs:366-387`, topic by topic). -/
def inBackground : Stream.Ev → Bool
  | .publish .. | .join .. | .leave .. | .ack .. | .seek .. => false
  | _ => true

/-- A background step on topic `n`; it does not answer a fetch (that is its command's last step). -/
def Streams.background (crc : Bytes → Nat) (s : Streams) (n : Str) (e : Stream.Ev) : Streams :=
  match mget s.topics n with
  | none => s
  | some t => if (fetchResult (t.step crc e).2).isSome then s else { s with topics := mset s.topics n (t.step crc e).1 }

end Verif.Rpc
