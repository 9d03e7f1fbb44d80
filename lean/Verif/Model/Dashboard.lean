import Verif.Model.Queue
import Verif.Model.Store
import Verif.Model.Command
import Verif.Model.StreamTopic

/-!
# The dashboard's HTTP interface to queues, streams and payloads

`/repo/src/brokers/queue/http.rs`, `/repo/src/brokers/stream/http.rs`, `/repo/src/transport/http/payload.rs`.  (That of
publish/subscribe is in `Verif.Model.PubSubScan`, that of the store in `Verif.Model.Store` and `StoreScan`.)

Simplifications.  The query string and the path are already decoded (axum); answers are the values that are turned into
JSON.  `String::from_utf8_lossy` and `serde_json::from_slice` are parameters (`lossy`, `parse`).
-/

namespace Verif.Dashboard

open Verif.Queue (Msg DlqMsg QInner)

/-! ### Queues -/

/-- `queue/http.rs:102-108` `QueueMessagesQuery`. -/
structure QueueQuery where
  state : Str
  offset : Option Nat := none
  limit : Option Nat := none
  search : Option Str := none
  deriving DecidableEq, Repr

/-- The answers of `get_queue_messages`. -/
inductive QueueReply where
  | messages (ms : List Msg) (total : Nat)
  | dead (ms : List DlqMsg) (total : Nat)
  | notFound
  deriving DecidableEq, Repr

/-- `str::to_lowercase` on ASCII letters.  (Other letters are left as they are; no other letter has a lower case that
consists of letters of the three words it is compared with.) -/
def lower (s : Str) : Str := s.map (fun c => if 65 ≤ c.toNat ∧ c.toNat ≤ 90 then UInt8.ofNat (c.toNat + 32) else c)

/-- "pending" -/
def wPending : Str := [112, 101, 110, 100, 105, 110, 103]
/-- "inflight" -/
def wInflight : Str := [105, 110, 102, 108, 105, 103, 104, 116]
/-- "dlq" -/
def wDlq : Str := [100, 108, 113]

/-- `queue.rs:280-283`: the search in the payload. -/
def matches? (lossy : Bytes → Str) (search : Option Str) (m : Msg) : Bool :=
  match search with
  | some s => Store.contains (lossy m.payload) s
  | none => true

/-- `queue/http.rs:120-147` `get_queue_messages`, with `queue.rs:265-270` (an unknown state gives an empty list); `q` is
the queue of the given name, if there is one (`queue/manager.rs:445-449`, `458-464`). -/
def queueMessages (lossy : Bytes → Str) (q : Option QInner) (query : QueueQuery) : QueueReply :=
  let limit := min (query.limit.getD 50) 1000
  let offset := query.offset.getD 0
  let state := lower query.state
  if state = wDlq then
    match q with
    | some q => .dead (Queue.dlqPeek q.dlq offset limit).2 (Queue.dlqPeek q.dlq offset limit).1
    | none => .notFound
  else
    match q with
    | some q =>
      if lower state = wPending then
        let r := q.state.getMessages false offset limit (matches? lossy query.search)
        .messages r.2 r.1
      else if lower state = wInflight then
        let r := q.state.getMessages true offset limit (matches? lossy query.search)
        .messages r.2 r.1
      else .messages [] 0
    | none => .notFound

/-! ### Payloads -/

/-- A JSON value: `null`, a string, or another value, given by its text. -/
inductive Json where
  | null
  | str (s : Str)
  | other (text : Str)
  deriving DecidableEq, Repr

/-- `payload.rs:5-34` `payload_to_json_value` (the cases of an unknown data type cannot occur, `12`). -/
def display (lossy : Bytes → Str) (parse : Bytes → Option Json) : Bytes → Json
  | [] => .null
  | t :: content =>
    if t.toNat ≤ 2 then
      if t = 2 then (parse content).getD (.str (lossy content))
      else if t = 0 then .str ([48, 120] ++ Wire.hexOf content)
      else .str (lossy content)
    else (parse (t :: content)).getD (.str (lossy (t :: content)))

/-! ### Streams -/

/-- `stream/http.rs:81-85` `StreamMessagesQuery`. -/
structure StreamQuery where
  «from» : Option Nat := none
  limit : Option Nat := none
  deriving DecidableEq, Repr

/-- `stream/http.rs:101`. -/
def StreamQuery.size (q : StreamQuery) : Nat := min (q.limit.getD 50) 500

/-- `stream/http.rs:111-113`; `last` is the `last_seq` of the snapshot. -/
def StreamQuery.start (q : StreamQuery) (last : Nat) : Nat := q.from.getD (max (last - (q.size - 1)) 1)

/-- `stream/manager.rs:405`: the `last_seq` of a topic in the snapshot. -/
def lastSeq (t : Stream.Topic) : Nat := t.log.next - 1

/-- `stream/http.rs:115-127`: what is shown of the messages that `read` returns: newest first. -/
def StreamQuery.shown (msgs : List Stream.Msg) : List Stream.Msg := msgs.reverse

/-- `stream/snapshot.rs:17-21` `ConsumerGroupSnapshot`. -/
structure GroupInfo where
  id : Str
  ackFloor : Nat
  pending : Nat
  deriving DecidableEq, Repr

/-- `stream/manager.rs:394-398`: the groups of a topic in the snapshot, one for each entry of the map. -/
def groups (t : Stream.Topic) : List GroupInfo :=
  (mkeys t.groups).filterMap (fun n => (mget t.groups n).map (fun g => { id := n, ackFloor := g.floor, pending := g.pending.length }))

end Verif.Dashboard
