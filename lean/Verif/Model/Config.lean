import Verif.Model.Engine

/-!
# Model of the configuration

`/repo/src/config.rs` and `/repo/src/brokers/*/config.rs`: the settings are read from the environment when the server starts;
`/repo/src/lib.rs:30-40` and the brokers' constructors hand them to the tasks.

The environment is that of the process after `dotenv` (`config.rs:27`) has added the variables of the file `.env` to it.  `env::var` fails for
variables that are not set and for values that are not Unicode: both are `none` here.
-/

namespace Verif.Config

open Verif
open Verif.Rpc (ascii)

/-- `env::var(key).ok()` -/
abbrev Vars := Str → Option Str

/-- `char::to_digit(10)` on a byte (`core::num`). -/
def digit (b : UInt8) : Option Nat := if 48 ≤ b.toNat ∧ b.toNat ≤ 57 then some (b.toNat - 48) else none

/-- The loop of `from_str_radix` (`core::num`): `checked_mul` and `checked_add`; `max` is the largest value of the type. -/
def parseLoop (max : Nat) : Nat → Str → Option Nat
  | acc, [] => some acc
  | acc, b :: t =>
    match digit b with
    | none => none
    | some d => if acc * 10 > max then none else if acc * 10 + d > max then none else parseLoop max (acc * 10 + d) t

/-- `str::parse` for the unsigned type of `bits` bits: no empty text, no lone sign, a `+` may come first. -/
def parseUint (bits : Nat) : Str → Option Nat
  | [] => none
  | [b] => if b = 43 ∨ b = 45 then none else parseLoop (2 ^ bits - 1) 0 [b]
  | b :: t => if b = 43 then parseLoop (2 ^ bits - 1) 0 t else parseLoop (2 ^ bits - 1) 0 (b :: t)

/-- `config.rs:72-78` `get_env`, for numbers: `none` is the panic of `unwrap`. -/
def need (v : Vars) (bits : Nat) (key dflt : String) : Option Nat := parseUint bits ((v (ascii key)).getD (ascii dflt))

/-- `config.rs:72-78` `get_env`, for text; `brokers/queue/config.rs:53-55` and the others: `get_env_str`. -/
def text (v : Vars) (key dflt : String) : Str := (v (ascii key)).getD (ascii dflt)

/-- `brokers/queue/config.rs:46-51` `get_env`, the same in `pub-sub/config.rs:34-39`, `store/config.rs:28-33`, `stream/config.rs:61-66`. -/
def pick (v : Vars) (bits : Nat) (key : String) (dflt : Nat) : Nat := ((v (ascii key)).bind (parseUint bits)).getD dflt

/-- `config.rs:41-50`; `usize` has 64 bits. -/
structure Server where
  host : Str
  port : Nat
  dashboardPort : Nat
  logLevel : Str
  dashboardEnabled : Bool
  maxPayloadSize : Nat
  channelCapacity : Nat

/-- `config.rs:53-65` -/
def Server.load (v : Vars) : Option Server :=
  match need v 16 "SERVER_SOCKET_TCP_PORT" "7654", need v 16 "SERVER_DASHBOARD_HTTP_PORT" "8080",
    need v 64 "MAX_PAYLOAD_SIZE" "10485760", need v 64 "CHANNEL_CAPACITY_SOCKET_WRITE" "1024" with
  | some port, some dashboardPort, some maxPayloadSize, some channelCapacity =>
    some { host := text v "SERVER_HOST" "0.0.0.0", port, dashboardPort, logLevel := text v "NEXO_LOG" "error",
           dashboardEnabled := decide (text v "NEXO_ENV" "dev" ≠ ascii "prod"), maxPayloadSize, channelCapacity }
  | _, _, _, _ => none

/-- `brokers/store/config.rs:3-7` -/
structure Store where
  cleanupIntervalSecs : Nat
  defaultTtlSecs : Nat

/-- `brokers/store/config.rs:18-26` -/
def Store.load (v : Vars) : Store :=
  { cleanupIntervalSecs := pick v 64 "STORE_CLEANUP_INTERVAL_SECS" 60, defaultTtlSecs := pick v 64 "STORE_TTL_SECS" 3600 }

/-- `brokers/queue/config.rs:3-15` -/
structure Queue where
  visibilityTimeoutMs : Nat
  maxRetries : Nat
  defaultBatchSize : Nat
  defaultWaitMs : Nat
  persistencePath : Str
  defaultFlushMs : Nat
  writerBatchSize : Nat

/-- `brokers/queue/config.rs:31-43` -/
def Queue.load (v : Vars) : Queue :=
  { visibilityTimeoutMs := pick v 64 "QUEUE_VISIBILITY_MS" 30000
    maxRetries := pick v 32 "QUEUE_MAX_RETRIES" 5
    defaultBatchSize := pick v 64 "QUEUE_DEFAULT_BATCH_SIZE" 10
    defaultWaitMs := pick v 64 "QUEUE_DEFAULT_WAIT_MS" 0
    persistencePath := text v "QUEUE_ROOT_PERSISTENCE_PATH" "./data/queues"
    defaultFlushMs := pick v 64 "QUEUE_DEFAULT_FLUSH_MS" 100
    writerBatchSize := pick v 64 "QUEUE_WRITER_BATCH_SIZE" 50000 }

/-- `brokers/pub-sub/config.rs:3-9` -/
structure PubSub where
  persistencePath : Str
  defaultRetainedTtlSecs : Nat
  cleanupIntervalSecs : Nat
  retainedFlushMs : Nat

/-- `brokers/pub-sub/config.rs:22-32` -/
def PubSub.load (v : Vars) : PubSub :=
  { persistencePath := text v "PUBSUB_ROOT_PERSISTENCE_PATH" "./data/pubsub"
    defaultRetainedTtlSecs := pick v 64 "PUBSUB_DEFAULT_RETAINED_TTL_SECS" 3600
    cleanupIntervalSecs := pick v 64 "PUBSUB_CLEANUP_INTERVAL_SECS" 60
    retainedFlushMs := pick v 64 "PUBSUB_RETAINED_FLUSH_MS" 500 }

/-- `brokers/stream/config.rs:3-18` -/
structure Stream where
  persistencePath : Str
  defaultFlushMs : Nat
  maxSegmentSize : Nat
  retentionCheckMs : Nat
  retentionBytes : Nat
  retentionAgeMs : Nat
  evictionIntervalMs : Nat
  ramSoftLimit : Nat
  ramHardLimit : Nat
  maxAckPending : Nat
  maxOpenFiles : Nat
  ackWaitMs : Nat
  maxDeliveries : Nat

/-- `brokers/stream/config.rs:40-59` -/
def Stream.load (v : Vars) : Stream :=
  { persistencePath := text v "STREAM_ROOT_PERSISTENCE_PATH" "./data/streams"
    defaultFlushMs := pick v 64 "STREAM_DEFAULT_FLUSH_MS" 50
    maxSegmentSize := pick v 64 "STREAM_MAX_SEGMENT_SIZE" 104857600
    retentionCheckMs := pick v 64 "STREAM_RETENTION_CHECK_MS" 600000
    retentionBytes := pick v 64 "STREAM_DEFAULT_RETENTION_BYTES" 1073741824
    retentionAgeMs := pick v 64 "STREAM_DEFAULT_RETENTION_AGE_MS" 604800000
    evictionIntervalMs := pick v 64 "STREAM_EVICTION_INTERVAL_MS" 500
    ramSoftLimit := pick v 64 "STREAM_RAM_SOFT_LIMIT" 1000
    ramHardLimit := pick v 64 "STREAM_RAM_HARD_LIMIT" 20000
    maxAckPending := pick v 64 "STREAM_MAX_ACK_PENDING" 10000
    maxOpenFiles := pick v 64 "STREAM_MAX_OPEN_FILES" 256
    ackWaitMs := pick v 64 "STREAM_ACK_WAIT_MS" 30000
    maxDeliveries := pick v 32 "STREAM_MAX_DELIVERIES" 5 }

/-- `config.rs:12-19` -/
structure All where
  server : Server
  store : Store
  queue : Queue
  pubsub : PubSub
  stream : Stream

/-- `config.rs:26-35` `load`; `none`: the server does not start. -/
def load (v : Vars) : Option All :=
  (Server.load v).map (fun server => { server, store := Store.load v, queue := Queue.load v, pubsub := PubSub.load v, stream := Stream.load v })

/-- `lib.rs:30-38` and `topic.rs:28-59`: what the brokers' code (`Model/Engine.lean`) uses; the rest of the arguments is not configuration.
`ramHardLimit` is not among it: `topic.rs:53` copies it, and nothing reads the copy. -/
def All.conf (c : All) (supply : Nat → Verif.Queue.Id) (env : Rpc.Env) (hub : Rpc.HubEnv) : Rpc.Conf :=
  { storeTtl := c.store.defaultTtlSecs
    queue := { visibilityTimeout := c.queue.visibilityTimeoutMs, maxRetries := c.queue.maxRetries }
    batch := c.queue.defaultBatchSize
    supply
    stream := { env with sys :=
      { softLimit := c.stream.ramSoftLimit, maxSegment := c.stream.maxSegmentSize, age := c.stream.retentionAgeMs, bytes := c.stream.retentionBytes,
        maxPending := c.stream.maxAckPending, ackWait := c.stream.ackWaitMs, maxDeliveries := c.stream.maxDeliveries } }
    hub := { hub with dflt := c.pubsub.defaultRetainedTtlSecs } }

/-! ### The start -/

/-- The tasks with a timer, and what the timer is for. -/
inductive Timer where
  /-- `store/domain/map.rs:33` -/
  | storeCleanup
  /-- `pub-sub/manager.rs:54` -/
  | retainedFlush
  /-- `pub-sub/manager.rs:82` -/
  | retainedCleanup
  /-- `queue/domain/persistence.rs:157`: one for each queue -/
  | queueWriter
  /-- `queue/manager.rs:155` -/
  | queueTimeouts
  /-- `stream/domain/persistence.rs:140` -/
  | streamStorage
  /-- `stream/manager.rs:523` -/
  | streamEviction
  /-- `stream/manager.rs:545` -/
  | streamGroups
  /-- `stream/manager.rs:580` -/
  | streamRetention
  /-- `stream/manager.rs:636` -/
  | streamRedelivery
  deriving DecidableEq

/-- The period of a task's timer, in its unit; `u64` multiplication wraps in a release build (`stream/manager.rs:541`). -/
def All.period (c : All) : Timer → Nat
  | .storeCleanup => c.store.cleanupIntervalSecs
  | .retainedFlush => c.pubsub.retainedFlushMs
  | .retainedCleanup => c.pubsub.cleanupIntervalSecs
  | .queueWriter => c.queue.defaultFlushMs
  | .queueTimeouts => 50
  | .streamStorage => c.stream.defaultFlushMs
  | .streamEviction => c.stream.evictionIntervalMs
  | .streamGroups => c.stream.defaultFlushMs * 10 % 2 ^ 64
  | .streamRetention => c.stream.retentionCheckMs
  | .streamRedelivery => 100

/-- `tokio::time::interval` panics if the period is zero: the task ends before it has done anything, and the server goes on without it. -/
def All.runs (c : All) (t : Timer) : Bool := decide (c.period t ≠ 0)

/-- `transport/tcp/connection.rs:27-28`: `mpsc::channel` panics if the capacity is zero or more than `usize::MAX >> 3`: the connection ends
before its first request. -/
def All.serves (c : All) : Bool := decide (c.server.channelCapacity ≠ 0 ∧ c.server.channelCapacity ≤ (2 ^ 64 - 1) / 8)

/-- `main.rs:13-41`: the configuration, the engine (`stream/domain/persistence.rs:130`: `NonZeroUsize::new(max_open_files).unwrap()`), the
socket (assumed to be free); `none`: the process ends. -/
def start (v : Vars) : Option All := (load v).bind (fun c => if c.stream.maxOpenFiles = 0 then none else some c)

end Verif.Config
