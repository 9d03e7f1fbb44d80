import Verif.Model.StreamDisk

/-!
# Model of one topic: shared state, requests in progress, background tasks, storage

`/repo/src/brokers/stream/manager.rs` (the functions that work on one topic) and the command loop of
`/repo/src/brokers/stream/domain/persistence.rs`.

Every section of code that holds the topic's mutex is one atomic step, and so is the handling of one storage command
and one run of `flush_all` (the storage actor is sequential, and nobody else reads the files).  A request that spans
several such sections is kept in the state between its steps (`sends`, `fetches`, `reads`, `retain`, `evictReg`), so that
the steps of all requests and tasks interleave in every possible way.  Other topics influence this one only through the
order of the storage channel, which is first-in-first-out for each topic, and through the eviction of file handles
(`closeHandle`).  `tokio` wake-ups are over-approximated: a waiting fetch may try again, or give up, at any time.
-/

namespace Verif.Stream

/-- `topic.rs:13-25` `struct TopicConfig` (the fields that are used). -/
structure Cfg where
  softLimit : Nat
  maxSegment : Nat
  retention : Retention
  maxPending : Nat
  ackWait : Nat
  maxDeliveries : Nat
  deriving DecidableEq, Repr

/-- `persistence.rs:65-96` `enum StorageCommand`; `reply` channels are named by the request that waits for them. -/
inductive SCmd where
  | append (m : Msg)
  | cold (id fromSeq limit : Nat)
  | coldRead (id fromSeq limit : Nat)
  | save (groups : List (Str × Nat))
  | retention
  deriving DecidableEq, Repr

/-- Where a fetch request is: `ready` to try (`manager.rs:227-229`), `waiting` (`245-249`), waiting for the disk
(`736`), or having got the answer. -/
inductive Phase where
  | ready
  | waiting
  | disk
  | answered (msgs : List Msg)
  deriving DecidableEq, Repr

/-- A fetch request in progress (`manager.rs:205`); `poll` = `wait_ms != 0`, `token` = `group_cancel`. -/
structure FetchOp where
  group : Str
  consumer : Str
  gen : Nat
  limit : Nat
  poll : Bool
  token : Nat
  phase : Phase
  deriving DecidableEq, Repr

/-- The retention task (`manager.rs:574-630`) with respect to this topic. -/
inductive RetPhase where
  | idle
  | sent
  | outcome (head : Nat)
  deriving DecidableEq, Repr

/-- `manager.rs:22-40` `TopicShared`/`TopicInner`, the requests in progress, and the topic's part of the
`StorageManager`. -/
structure Topic where
  cfg : Cfg
  log : Log
  groups : List (Str × Group)
  clients : List (Str × List (Str × Str))
  dirty : Bool
  persisted : Nat
  sends : List Msg
  nextOp : Nat
  fetches : List (Nat × FetchOp)
  reads : List (Nat × Option (List Msg))
  retain : RetPhase
  evictReg : Option Nat
  chan : List SCmd
  disk : Disk
  ctx : Option Ctx
  deriving DecidableEq, Repr

/-- What the steps are. -/
inductive Ev where
  /-- `manager.rs:157-160`: the section of `publish` under the lock. -/
  | publish (ts : Nat) (payload : Bytes)
  /-- `manager.rs:162-173`: the `i`-th publish in progress sends its record to the storage actor and returns. -/
  | send (i : Nat)
  /-- `manager.rs:331-364` `join_group`. -/
  | join (group conn consumer : Str)
  /-- `manager.rs:297-329` `leave_group`. -/
  | leave (group consumer : Str) (gen : Nat) (order : List Nat)
  /-- `manager.rs:366-387` `disconnect`, for this topic. -/
  | disconnect (conn : Str) (order : Str → List Nat)
  /-- `manager.rs:205-214`: a fetch request arrives; it is known by the number of the request (`nextOp`). -/
  | fetch (group consumer : Str) (gen limit : Nat) (poll : Bool)
  /-- `manager.rs:217`, `229`: it tries (`try_fetch_once`). -/
  | attempt (id now : Nat)
  /-- `manager.rs:241-249`: a waiting fetch gives up. -/
  | giveUp (id : Nat)
  /-- `manager.rs:747-762`: the end of a cold fetch. -/
  | finish (id now : Nat)
  /-- The task of the request is dropped while it waits (`connection.rs:99`). -/
  | abort (id : Nat)
  /-- `manager.rs:258-273` `ack`. -/
  | ack (group consumer : Str) (gen seq : Nat)
  /-- `manager.rs:275-295` `seek`; `toEnd`: to the end, else to the beginning. -/
  | seek (group : Str) (toEnd : Bool)
  /-- `manager.rs:643-661`: the redelivery task visits the topic. -/
  | tick (now : Nat) (order : Str → List Nat)
  /-- `manager.rs:531`: the eviction task reads `persisted_seq`. -/
  | evictLoad
  /-- `manager.rs:532-533`: and evicts. -/
  | evictRun
  /-- `manager.rs:552-569`: the groups task visits the topic; `order` = iteration order of the map. -/
  | save (order : List (Str × Nat) → List (Str × Nat))
  /-- `manager.rs:588-601`: the retention task asks for retention. -/
  | retainSend
  /-- `manager.rs:603-626`: the retention task gets the outcome. -/
  | retainDone
  /-- `manager.rs:176-201`: `read`; known by the number of the request. -/
  | read (fromSeq limit : Nat)
  /-- `manager.rs:202`: the reply of the storage actor is returned. -/
  | readDone (id : Nat)
  /-- `persistence.rs:145-151`: the storage actor handles the next command. -/
  | storage (now : Nat)
  /-- `persistence.rs:284-300` `flush_all`. -/
  | flush (now : Nat)
  /-- Buffered bytes reach a file. -/
  | leak (start n now : Nat)
  /-- `persistence.rs:273-277`: the writer of a segment is evicted. -/
  | closeHandle (start now : Nat)

/-- Who gets the answer of a fetch. -/
structure Query where
  group : Str
  consumer : Str
  gen : Nat
  limit : Nat
  deriving DecidableEq, Repr

/-- The request of a fetch in progress. -/
def FetchOp.query (op : FetchOp) : Query :=
  { group := op.group, consumer := op.consumer, gen := op.gen, limit := op.limit }

/-- What a step answers to a client (`retained`: what retention has done). -/
inductive Out where
  | none
  | published (seq : Nat)
  | fetched (q : Query) (r : Except GErr (List Msg))
  | retained (head : Nat)
  | ok
  | err (e : GErr)
  | joined (floor : Nat) (consumer : Str) (gen : Nat)
  | readReply (id : Nat) (msgs : List Msg)

namespace Topic

/-- `ConsumerGroup::new` with the topic's parameters: `manager.rs:285`, `344`. -/
def newGroup (t : Topic) : Group :=
  Group.new t.log.head t.cfg.maxPending t.cfg.ackWait t.cfg.maxDeliveries

/-- `manager.rs:331-364` `join_group`. -/
def join (t : Topic) (group conn consumer : Str) : Topic × Out :=
  let g0 := (mget t.groups group).getD t.newGroup
  let g1 := (g0.clampHead t.log.head).1.addMember consumer conn
  ({ t with groups := mset t.groups group g1
            clients := mset t.clients conn ((mget t.clients conn).getD [] ++ [(group, consumer)])
            dirty := t.dirty || !mhas t.groups group || (g0.clampHead t.log.head).2 },
   .joined g1.floor consumer g1.gen)

/-- `manager.rs:313-320`: the binding of a consumer that leaves is removed. -/
def unbind (clients : List (Str × List (Str × Str))) (conn group consumer : Str) : List (Str × List (Str × Str)) :=
  match mget clients conn with
  | none => clients
  | some bs =>
    if (bs.filter (fun b => b ≠ (group, consumer))).isEmpty then mdel clients conn
    else mset clients conn (bs.filter (fun b => b ≠ (group, consumer)))

/-- `manager.rs:297-329` `leave_group`. -/
def leave (t : Topic) (group consumer : Str) (gen : Nat) (order : List Nat) : Topic × Out :=
  match mget t.groups group with
  | none => (t, .err .groupNotFound)
  | some g =>
    if g.gen ≠ gen then (t, .err .fenced)
    else
      match (g.removeMember consumer order).2 with
      | none => (t, .err .notMember)
      | some conn =>
        ({ t with groups := mset t.groups group (g.removeMember consumer order).1
                  clients := unbind t.clients conn group consumer
                  dirty := true }, .ok)

/-- `manager.rs:373-380`: one binding of a connection that closes. -/
def dropBinding (order : Str → List Nat) (t : Topic) (b : Str × Str) : Topic :=
  match mget t.groups b.1 with
  | none => t
  | some g =>
    match (g.removeMember b.2 (order b.1)).2 with
    | none => t
    | some _ => { t with groups := mset t.groups b.1 (g.removeMember b.2 (order b.1)).1, dirty := true }

/-- `manager.rs:371-382`. -/
def disconnect (t : Topic) (conn : Str) (order : Str → List Nat) : Topic :=
  match mget t.clients conn with
  | none => t
  | some bs => bs.foldl (dropBinding order) { t with clients := mdel t.clients conn }

/-- `manager.rs:42-46` `enum FetchAttempt`. -/
inductive Attempt where
  | ready (msgs : List Msg)
  | needCold (fromSeq : Nat)
  | wait
  deriving DecidableEq, Repr

/-- The parameters with which `try_fetch_once` calls `fetch`. -/
def ask (t : Topic) (consumer : Str) (now : Nat) : Group.Ask :=
  { consumer, now, log := t.log.msgs, ramStart := t.log.ramStart, head := t.log.head }

/-- `manager.rs:701-718`: what `try_fetch_once` returns after `fetch`. -/
def decideFetch (t : Topic) (g : Group) (msgs : List Msg) : Group × Attempt :=
  if !msgs.isEmpty then (g, .ready msgs)
  else if g.fetchingCold then (g, .ready [])
  else if g.nextFetchSeq t.log.head < t.log.next && g.nextFetchSeq t.log.head < t.log.ramStart then
    ({ g with fetchingCold := true }, .needCold (g.nextFetchSeq t.log.head))
  else (g, .wait)

/-- `manager.rs:666-719` `try_fetch_once`. -/
def tryFetch (t : Topic) (group consumer : Str) (gen limit now : Nat) : Topic × Except GErr Attempt :=
  match mget t.groups group with
  | none => (t, .error .groupNotFound)
  | some g =>
    let g1 := (g.clampHead t.log.head).1
    if g1.backpressured then ({ t with groups := mset t.groups group g1 }, .ok (.ready []))
    else
      match (g1.fetch (t.ask consumer now) gen limit).2 with
      | .error e =>
        ({ t with groups := mset t.groups group (g1.fetch (t.ask consumer now) gen limit).1 }, .error e)
      | .ok msgs =>
        ({ t with groups := mset t.groups group (t.decideFetch (g1.fetch (t.ask consumer now) gen limit).1 msgs).1
                  dirty := t.dirty || (g.clampHead t.log.head).2 },
         .ok (t.decideFetch (g1.fetch (t.ask consumer now) gen limit).1 msgs).2)

/-- A fetch request ends with an answer. -/
def endFetch (t : Topic) (id : Nat) (op : FetchOp) (r : Except GErr (List Msg)) : Topic × Out :=
  ({ t with fetches := mdel t.fetches id }, .fetched op.query r)

/-- `manager.rs:216-239`: one attempt of a fetch request.  (Line 235 asks once more whether the consumer is a member;
consumer ids are never used again, so it still is not.) -/
def attempt (t : Topic) (id now : Nat) : Topic × Out :=
  match mget t.fetches id with
  | none => (t, .none)
  | some op =>
    if op.phase ≠ .ready ∧ op.phase ≠ .waiting then (t, .none)
    else
      match (t.tryFetch op.group op.consumer op.gen op.limit now).2 with
      | .error e =>
        (t.tryFetch op.group op.consumer op.gen op.limit now).1.endFetch id op
          (if op.poll && decide (e = .notMember) then .ok [] else .error e)
      | .ok (.ready msgs) => (t.tryFetch op.group op.consumer op.gen op.limit now).1.endFetch id op (.ok msgs)
      | .ok (.needCold fromSeq) =>
        ({ (t.tryFetch op.group op.consumer op.gen op.limit now).1 with
            fetches := mset t.fetches id { op with phase := .disk }
            chan := t.chan ++ [.cold id fromSeq op.limit] }, .none)
      | .ok .wait =>
        if op.poll then
          ({ (t.tryFetch op.group op.consumer op.gen op.limit now).1 with
              fetches := mset t.fetches id { op with phase := .waiting } }, .none)
        else (t.tryFetch op.group op.consumer op.gen op.limit now).1.endFetch id op (.ok [])

/-- `manager.rs:747-762`: the end of `cold_fetch`. -/
def finishCold (t : Topic) (op : FetchOp) (msgs : List Msg) (now : Nat) : Topic × Except GErr (List Msg) :=
  match mget t.groups op.group with
  | none => (t, .error .groupNotFound)
  | some g =>
    let g0 := { g with fetchingCold := false }
    if g0.epoch ≠ op.token then ({ t with groups := mset t.groups op.group g0 }, .ok [])
    else
      let g1 := (g0.clampHead t.log.head).1
      match (g1.registerCold op.consumer now op.gen msgs t.log.head).2 with
      | .error e =>
        ({ t with groups := mset t.groups op.group (g1.registerCold op.consumer now op.gen msgs t.log.head).1 },
          .error e)
      | .ok ms =>
        ({ t with groups := mset t.groups op.group (g1.registerCold op.consumer now op.gen msgs t.log.head).1
                  dirty := t.dirty || (g0.clampHead t.log.head).2 }, .ok ms)

/-- `manager.rs:258-273` `ack`. -/
def ack (t : Topic) (group consumer : Str) (gen seq : Nat) : Topic × Out :=
  match mget t.groups group with
  | none => (t, .err .groupNotFound)
  | some g =>
    let g1 := (g.clampHead t.log.head).1
    match (g1.ack consumer gen seq).2 with
    | some e => ({ t with groups := mset t.groups group (g1.ack consumer gen seq).1 }, .err e)
    | none => ({ t with groups := mset t.groups group (g1.ack consumer gen seq).1, dirty := true }, .ok)

/-- `manager.rs:275-295` `seek`. -/
def seek (t : Topic) (group : Str) (toEnd : Bool) : Topic × Out :=
  let g := (mget t.groups group).getD t.newGroup
  ({ t with groups := mset t.groups group (if toEnd then g.seekEnd (t.log.next - 1) else g.seekBeginning t.log.head)
            dirty := true }, .ok)

/-- `manager.rs:643-661`. -/
def tick (t : Topic) (now : Nat) (order : Str → List Nat) : Topic :=
  { t with
    groups := t.groups.map (fun e => (e.1, (e.2.checkRedelivery now (order e.1)).1))
    dirty := t.dirty || t.groups.any (fun e => (e.2.checkRedelivery now (order e.1)).2) }

/-- `manager.rs:552-569`: `None` if nothing has changed. -/
def saveGroups (t : Topic) (order : List (Str × Nat) → List (Str × Nat)) : Topic :=
  if t.dirty then
    let data := t.groups.map (fun e => (e.1, e.2.floor))
    { t with dirty := false, chan := t.chan ++ [.save (if (order data).isPerm data then order data else data)] }
  else t

/-- `manager.rs:607-623`. -/
def applyOutcome (t : Topic) (head : Nat) : Topic :=
  if head ≠ t.log.head then
    { t with
      log := t.log.applyHead head
      groups := t.groups.map (fun e => (e.1, (e.2.clampHead head).1))
      dirty := t.dirty || t.groups.any (fun e => (e.2.clampHead head).2) }
  else t

/-- `manager.rs:176-201`: the part of `read` under the lock, and the request to the storage actor. -/
def startRead (t : Topic) (fromSeq limit : Nat) : Topic × Out :=
  let eff := max fromSeq t.log.head
  let msgs := t.log.read eff limit
  if msgs.isEmpty && decide (eff < t.log.ramStart) && decide (eff < t.log.next) then
    ({ t with nextOp := t.nextOp + 1, reads := mset t.reads t.nextOp none
              chan := t.chan ++ [.coldRead t.nextOp eff limit] }, .none)
  else ({ t with nextOp := t.nextOp + 1 }, .readReply t.nextOp msgs)

variable (crc : Bytes → Nat)

/-- `persistence.rs:166-197` `handle_command` (and `ColdRead`'s reply, which is lost when nobody waits for it). -/
def handle (t : Topic) (c : SCmd) (now : Nat) : Topic :=
  match c with
  | .append m =>
    let ctx := t.ctx.getD (Ctx.open t.disk)
    { t with disk := (appendTo crc t.cfg.maxSegment t.disk ctx m now).1
             ctx := some (appendTo crc t.cfg.maxSegment t.disk ctx m now).2 }
  | .cold id fromSeq limit =>
    { t with fetches := mupd t.fetches id (fun op =>
        if op.phase = .disk then { op with phase := .answered (coldRead crc t.disk.segs fromSeq limit) } else op) }
  | .coldRead id fromSeq limit =>
    { t with reads := mupd t.reads id (fun _ => some (coldRead crc t.disk.segs fromSeq limit)) }
  | .save gs => { t with disk := { t.disk with groups := some (groupsFile crc gs) } }
  | .retention =>
    { t with disk := t.disk.retain t.cfg.retention now
             retain := .outcome (t.disk.retain t.cfg.retention now).headSeq }

/-- `persistence.rs:284-300` `flush_all`. -/
def flushAll (t : Topic) (now : Nat) : Topic :=
  match t.ctx with
  | none => { t with disk := t.disk.flushAll now }
  | some c =>
    { t with
      disk := t.disk.flushAll now
      persisted := if c.dirty && decide (0 < c.highest) then c.highest else t.persisted
      ctx := some (if c.dirty then { c with highest := 0, dirty := false } else c) }

/-- One step. -/
def step (t : Topic) : Ev → Topic × Out
  | .publish ts payload =>
    ({ t with log := (t.log.append ts payload).1, sends := t.sends ++ [(t.log.append ts payload).2] }, .none)
  | .send i =>
    match t.sends[i]? with
    | none => (t, .none)
    | some m => ({ t with sends := t.sends.eraseIdx i, chan := t.chan ++ [.append m] }, .published m.seq)
  | .join group conn consumer => t.join group conn consumer
  | .leave group consumer gen order => t.leave group consumer gen order
  | .disconnect conn order => (t.disconnect conn order, .none)
  | .fetch group consumer gen limit poll =>
    match mget t.groups group with
    | none => ({ t with nextOp := t.nextOp + 1 }, .fetched { group, consumer, gen, limit } (.error .groupNotFound))
    | some g =>
      ({ t with nextOp := t.nextOp + 1
                fetches := mset t.fetches t.nextOp
                  { group, consumer, gen, limit, poll, token := g.epoch, phase := .ready } }, .none)
  | .attempt id now => t.attempt id now
  | .giveUp id =>
    match mget t.fetches id with
    | none => (t, .none)
    | some op => if op.phase = .waiting then t.endFetch id op (.ok []) else (t, .none)
  | .finish id now =>
    match mget t.fetches id with
    | none => (t, .none)
    | some op =>
      match op.phase with
      | .answered msgs => (t.finishCold op msgs now).1.endFetch id op (t.finishCold op msgs now).2
      | _ => (t, .none)
  | .abort id => ({ t with fetches := mdel t.fetches id }, .none)
  | .ack group consumer gen seq => t.ack group consumer gen seq
  | .seek group toEnd => t.seek group toEnd
  | .tick now order => (t.tick now order, .none)
  | .evictLoad => ({ t with evictReg := some t.persisted }, .none)
  | .evictRun =>
    match t.evictReg with
    | none => (t, .none)
    | some p => ({ t with log := t.log.evict p, evictReg := none }, .none)
  | .save order => (t.saveGroups order, .none)
  | .retainSend =>
    if t.retain = .idle then ({ t with retain := .sent, chan := t.chan ++ [.retention] }, .none) else (t, .none)
  | .retainDone =>
    match t.retain with
    | .outcome head => ({ t.applyOutcome head with retain := .idle }, .retained (t.applyOutcome head).log.head)
    | _ => (t, .none)
  | .read fromSeq limit => t.startRead fromSeq limit
  | .readDone id =>
    match mget t.reads id with
    | some (some msgs) => ({ t with reads := mdel t.reads id }, .readReply id msgs)
    | _ => (t, .none)
  | .storage now =>
    match t.chan with
    | [] => (t, .none)
    | c :: cs => ({ t with chan := cs }.handle crc c now, .none)
  | .flush now => (t.flushAll now, .none)
  | .leak start n now => ({ t with disk := t.disk.leak start n now }, .none)
  | .closeHandle start now => ({ t with disk := t.disk.close start now }, .none)

/-- A history: the steps in order. -/
def run (t : Topic) : List Ev → Topic
  | [] => t
  | e :: es => run (t.step crc e).1 es

/-- `manager.rs:484-514` `build_topic_shared`: a topic as it is after its creation or after a restart, from what is on
disk. -/
def build (cfg : Cfg) (lossy : Bytes → Str) (d : Disk) : Topic :=
  let r := recover crc lossy d
  let log := Log.restore cfg.softLimit (max r.head 1) r.msgs
  { cfg, log
    groups := r.groups.map (fun e => (e.1, Group.restore e.2 log.head cfg.maxPending cfg.ackWait cfg.maxDeliveries))
    clients := [], dirty := false, persisted := log.next - 1
    sends := [], nextOp := 0, fetches := [], reads := [], retain := .idle, evictReg := none
    chan := [], disk := { d with writers := [] }, ctx := none }

/-- A topic that has just been created: nothing on disk. -/
def fresh (cfg : Cfg) : Topic := build crc cfg id { segs := [], writers := [], groups := none }

/-- The server stops at some moment (crash): requests in progress, memory and unwritten buffers are lost; after the
restart the topic is rebuilt from its files. -/
def restart (t : Topic) (lossy : Bytes → Str) : Topic := build crc t.cfg lossy { t.disk with writers := [] }

end Topic
end Verif.Stream
