import Verif.Model.Config

/-!
# What settings mean

A number is written in decimal digits, with or without a `+` in front.  The tables list the settings: the name of the variable, the size of the
number, the default, and where the server keeps it.
-/

namespace Verif.Config

open Verif
open Verif.Rpc (ascii)

/-- A decimal digit. -/
def IsDigit (b : UInt8) : Prop := 48 ≤ b.toNat ∧ b.toNat ≤ 57

/-- The number that a row of digits stands for. -/
def value (t : Str) : Nat := t.foldl (fun a b => a * 10 + (b.toNat - 48)) 0

/-- `s` is the number `n` in decimal. -/
def Written (s : Str) (n : Nat) : Prop := ∃ t, (s = t ∨ s = 43 :: t) ∧ t ≠ [] ∧ (∀ b ∈ t, IsDigit b) ∧ value t = n

/-- A setting that is a number of `bits` bits. -/
structure Num where
  key : String
  bits : Nat
  dflt : Nat
  get : All → Nat

/-- `docs/guide/deployment.md:76-86`, `config.rs:53-65` -/
def serverNums : List Num :=
  [⟨"SERVER_SOCKET_TCP_PORT", 16, 7654, (·.server.port)⟩,
   ⟨"SERVER_DASHBOARD_HTTP_PORT", 16, 8080, (·.server.dashboardPort)⟩,
   ⟨"MAX_PAYLOAD_SIZE", 64, 10485760, (·.server.maxPayloadSize)⟩,
   ⟨"CHANNEL_CAPACITY_SOCKET_WRITE", 64, 1024, (·.server.channelCapacity)⟩]

/-- `brokers/*/config.rs` -/
def brokerNums : List Num :=
  [⟨"STORE_CLEANUP_INTERVAL_SECS", 64, 60, (·.store.cleanupIntervalSecs)⟩,
   ⟨"STORE_TTL_SECS", 64, 3600, (·.store.defaultTtlSecs)⟩,
   ⟨"QUEUE_VISIBILITY_MS", 64, 30000, (·.queue.visibilityTimeoutMs)⟩,
   ⟨"QUEUE_MAX_RETRIES", 32, 5, (·.queue.maxRetries)⟩,
   ⟨"QUEUE_DEFAULT_BATCH_SIZE", 64, 10, (·.queue.defaultBatchSize)⟩,
   ⟨"QUEUE_DEFAULT_WAIT_MS", 64, 0, (·.queue.defaultWaitMs)⟩,
   ⟨"QUEUE_DEFAULT_FLUSH_MS", 64, 100, (·.queue.defaultFlushMs)⟩,
   ⟨"QUEUE_WRITER_BATCH_SIZE", 64, 50000, (·.queue.writerBatchSize)⟩,
   ⟨"PUBSUB_DEFAULT_RETAINED_TTL_SECS", 64, 3600, (·.pubsub.defaultRetainedTtlSecs)⟩,
   ⟨"PUBSUB_CLEANUP_INTERVAL_SECS", 64, 60, (·.pubsub.cleanupIntervalSecs)⟩,
   ⟨"PUBSUB_RETAINED_FLUSH_MS", 64, 500, (·.pubsub.retainedFlushMs)⟩,
   ⟨"STREAM_DEFAULT_FLUSH_MS", 64, 50, (·.stream.defaultFlushMs)⟩,
   ⟨"STREAM_MAX_SEGMENT_SIZE", 64, 104857600, (·.stream.maxSegmentSize)⟩,
   ⟨"STREAM_RETENTION_CHECK_MS", 64, 600000, (·.stream.retentionCheckMs)⟩,
   ⟨"STREAM_DEFAULT_RETENTION_BYTES", 64, 1073741824, (·.stream.retentionBytes)⟩,
   ⟨"STREAM_DEFAULT_RETENTION_AGE_MS", 64, 604800000, (·.stream.retentionAgeMs)⟩,
   ⟨"STREAM_EVICTION_INTERVAL_MS", 64, 500, (·.stream.evictionIntervalMs)⟩,
   ⟨"STREAM_RAM_SOFT_LIMIT", 64, 1000, (·.stream.ramSoftLimit)⟩,
   ⟨"STREAM_RAM_HARD_LIMIT", 64, 20000, (·.stream.ramHardLimit)⟩,
   ⟨"STREAM_MAX_ACK_PENDING", 64, 10000, (·.stream.maxAckPending)⟩,
   ⟨"STREAM_MAX_OPEN_FILES", 64, 256, (·.stream.maxOpenFiles)⟩,
   ⟨"STREAM_ACK_WAIT_MS", 64, 30000, (·.stream.ackWaitMs)⟩,
   ⟨"STREAM_MAX_DELIVERIES", 32, 5, (·.stream.maxDeliveries)⟩]

/-- A setting that is text. -/
structure Txt where
  key : String
  dflt : String
  get : All → Str

def texts : List Txt :=
  [⟨"SERVER_HOST", "0.0.0.0", (·.server.host)⟩,
   ⟨"NEXO_LOG", "error", (·.server.logLevel)⟩,
   ⟨"QUEUE_ROOT_PERSISTENCE_PATH", "./data/queues", (·.queue.persistencePath)⟩,
   ⟨"PUBSUB_ROOT_PERSISTENCE_PATH", "./data/pubsub", (·.pubsub.persistencePath)⟩,
   ⟨"STREAM_ROOT_PERSISTENCE_PATH", "./data/streams", (·.stream.persistencePath)⟩]

/-- The text of a variable is a number of the setting's size. -/
def Num.Ok (x : Num) (s : Str) : Prop := ∃ n, Written s n ∧ n < 2 ^ x.bits

/-- All variables that the server reads. -/
def keys : List String := serverNums.map (·.key) ++ brokerNums.map (·.key) ++ texts.map (·.key) ++ ["NEXO_ENV"]

/-- The environment with one variable set. -/
def Vars.set (v : Vars) (key : String) (s : Str) : Vars := fun k => if k = ascii key then some s else v k

/-- The variable that a task's interval is set with. -/
def intervals : List (Timer × String) :=
  [(.storeCleanup, "STORE_CLEANUP_INTERVAL_SECS"), (.retainedFlush, "PUBSUB_RETAINED_FLUSH_MS"), (.retainedCleanup, "PUBSUB_CLEANUP_INTERVAL_SECS"),
   (.queueWriter, "QUEUE_DEFAULT_FLUSH_MS"), (.streamStorage, "STREAM_DEFAULT_FLUSH_MS"), (.streamEviction, "STREAM_EVICTION_INTERVAL_MS"),
   (.streamGroups, "STREAM_DEFAULT_FLUSH_MS"), (.streamRetention, "STREAM_RETENTION_CHECK_MS")]

/-- The events in the life of a queue that a server with these settings can make happen: only its writer task commits. -/
def Permits (c : All) (es : List Queue.Event) : Prop := ∀ n, Queue.Event.commit n ∈ es → c.runs .queueWriter = true

end Verif.Config
