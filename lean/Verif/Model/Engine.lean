import Verif.Model.QueueRpc
import Verif.Model.StreamRpc
import Verif.Model.PubSubRpc

/-!
# Model of the whole engine behind the network

`/repo/src/lib.rs:18-40` `NexoEngine`: the four brokers side by side; `/repo/src/transport/tcp/dispatcher.rs:22-43`: a parsed command goes
to the broker whose range its opcode is in (`Model/Command.lean`, `route`); the background tasks each belong to one broker.
-/

namespace Verif.Rpc

open Verif Verif.Wire Verif.Sdk

/-- `lib.rs:18-25` -/
structure Engine where
  store : Store.Map
  queues : Queues
  streams : Streams
  hub : Hub

/-- The configuration of the four brokers (`config.rs:12-19`), and what it does not determine (ids, iteration order, wall clock). -/
structure Conf where
  /-- `store.default_ttl_secs` -/
  storeTtl : Nat
  queue : Queue.Config
  /-- `queue.default_batch_size` -/
  batch : Nat
  /-- `Uuid::new_v4` -/
  supply : Nat → Queue.Id
  stream : Env
  hub : HubEnv

/-- The background tasks. -/
inductive Task where
  /-- `store/manager.rs`: the cleanup reaches a key -/
  | sweep (key : Str) (now : Nat)
  /-- `queue/domain/persistence.rs:129-200`: the writer of a queue commits -/
  | commit (q : Str) (k : Nat)
  /-- `queue/manager.rs:150-207`: the timeout task of a queue -/
  | timeouts (q : Str) (t t' : Nat)
  /-- `stream/manager.rs:516-665`: the tasks of a topic, the disk, waiting fetches, closed connections; commands are not among them -/
  | stream (n : Str) (e : Stream.Ev)
  /-- `pub-sub/manager.rs`: connections that begin and end, cleanup, flush -/
  | hub (op : PubSub.Op)

/-- `dispatcher.rs:28-39`: the four calls. -/
def Engine.exec (c : Conf) (l now : Nat) (cmd : Cmd) (e : Engine) : Engine × Option Response :=
  match cmd with
  | .mapSet .. | .mapGet _ | .mapDel _ =>
    let r := storeExec c.storeTtl now cmd e.store
    ({ e with store := r.1 }, r.2)
  | .qCreate .. | .qPush .. | .qConsume .. | .qAck .. | .qNack .. | .qExists _ | .qDelete _ | .qPeek .. | .qMove .. | .qDelDlq .. | .qPurge _ =>
    let r := queueExec c.queue c.batch c.supply now cmd e.queues
    ({ e with queues := r.1 }, r.2)
  | .publish .. | .subscribe _ | .unsubscribe _ =>
    let r := hubExec c.hub l now cmd e.hub
    ({ e with hub := r.1 }, r.2)
  | .sCreate .. | .sPub .. | .sFetch .. | .sJoin .. | .sAck .. | .sSeek .. | .sExists _ | .sDelete _ | .sLeave .. =>
    let r := streamExec c.stream l now cmd e.streams
    ({ e with streams := r.1 }, r.2)

/-- The background tasks, each on the broker it belongs to. -/
def Engine.tick (c : Conf) (x : Task) (e : Engine) : Engine :=
  match x with
  | .sweep k now => { e with store := Store.sweep e.store k now }
  | .commit q k => { e with queues := { e.queues with mgr := (e.queues.mgr.step c.queue (.commit q k)).1 } }
  | .timeouts q t t' => { e with queues := { e.queues with mgr := (e.queues.mgr.step c.queue (.op q (.tick t t'))).1 } }
  | .stream n ev => if inBackground ev then { e with streams := e.streams.background c.stream.crc n ev } else e
  | .hub op =>
    match op with
    | .connect _ | .drop _ | .disconnect _ | .cleanup _ | .flush .. => { e with hub := e.hub.step c.hub op }
    | _ => e

/-- The server: the engine behind the dispatcher. -/
def engineServer (c : Conf) (max : Nat) (sd : Serde) (parseError unsupported : Str) : Server Engine Task where
  max := max
  sd := sd
  exec := Engine.exec c
  tick := Engine.tick c
  parseError := parseError
  unsupported := unsupported

end Verif.Rpc
