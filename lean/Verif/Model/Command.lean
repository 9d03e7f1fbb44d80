import Verif.Model.Wire

/-!
# Model of the wire format: commands and answers

Server: `/repo/src/transport/tcp/protocol/cursor.rs`, `/repo/src/transport/tcp/dispatcher.rs` and the parsers and
encoders in `/repo/src/brokers/{store,queue,pub-sub,stream}/tcp.rs`.
Client: `/repo/sdk/ts/src/codec.ts` and the command builders and answer readers in
`/repo/sdk/ts/src/brokers/{store,queue,pubsub,stream}.ts`.

Options travel as JSON text.  serde's reading of that text (`Serde`) and `JSON.stringify` (`Printer`) are parameters.
The client's strings are represented by their UTF-8 encoding, which is what `Buffer.write(s, 'utf8')` writes.
Error messages of parse errors are not modelled.
-/

namespace Verif.Wire

/-- A continuation byte. -/
def isCont (b : UInt8) : Bool := decide (128 ≤ b.toNat ∧ b.toNat ≤ 191)

/-- `std::str::from_utf8(..).is_ok()`: the well-formed byte sequences of the Unicode standard (Table 3-7). -/
def validUtf8 : Bytes → Bool
  | [] => true
  | a :: t =>
    if a.toNat < 128 then validUtf8 t
    else
      match t with
      | [] => false
      | b :: t1 =>
        if 194 ≤ a.toNat ∧ a.toNat ≤ 223 then isCont b && validUtf8 t1
        else
          match t1 with
          | [] => false
          | c :: t2 =>
            if a.toNat = 224 then decide (160 ≤ b.toNat ∧ b.toNat ≤ 191) && isCont c && validUtf8 t2
            else if a.toNat = 237 then decide (128 ≤ b.toNat ∧ b.toNat ≤ 159) && isCont c && validUtf8 t2
            else if 225 ≤ a.toNat ∧ a.toNat ≤ 239 then isCont b && isCont c && validUtf8 t2
            else
              match t2 with
              | [] => false
              | d :: t3 =>
                if a.toNat = 240 then decide (144 ≤ b.toNat ∧ b.toNat ≤ 191) && isCont c && isCont d && validUtf8 t3
                else if a.toNat = 244 then decide (128 ≤ b.toNat ∧ b.toNat ≤ 143) && isCont c && isCont d && validUtf8 t3
                else if 241 ≤ a.toNat ∧ a.toNat ≤ 243 then isCont b && isCont c && isCont d && validUtf8 t3
                else false

/-! ### `cursor.rs`: every reader returns the value and the remaining bytes -/

/-- Result of parsing: a value, `Err(ParseError)`, or a panic. -/
inductive Res (α : Type) where
  | ok (a : α)
  | err
  | panic
  deriving DecidableEq, Repr

def Res.bind {α β : Type} : Res α → (α → Res β) → Res β
  | .ok a, f => f a
  | .err, _ => .err
  | .panic, _ => .panic

instance : Monad Res where
  pure := .ok
  bind := Res.bind

def Res.ofOption {α : Type} : Option α → Res α
  | some a => .ok a
  | none => .err

/-- `Buf::copy_to_bytes`, `copy_to_slice` (crate `bytes`): panics if fewer than `n` bytes remain. -/
def getBytes (n : Nat) (b : Bytes) : Res (Bytes × Bytes) :=
  if b.length < n then .panic else .ok (b.take n, b.drop n)

/-- `Buf::get_u8`, `get_u32`, `get_u64`: `n` bytes, big-endian; panics if fewer remain. -/
def getInt (n : Nat) (b : Bytes) : Res (Nat × Bytes) :=
  if b.length < n then .panic else .ok (beVal (b.take n), b.drop n)

/-- `cursor.rs:13-15` `has_remaining`. -/
def hasRemaining (b : Bytes) (n : Nat) : Bool := decide (b.length ≥ n)

/-- `cursor.rs:17-22` `read_u8`. -/
def rdU8 (b : Bytes) : Res (Nat × Bytes) := if !hasRemaining b 1 then .err else getInt 1 b

/-- `cursor.rs:24-29` `read_u32`. -/
def rdU32 (b : Bytes) : Res (Nat × Bytes) := if !hasRemaining b 4 then .err else getInt 4 b

/-- `cursor.rs:31-36` `read_u64`. -/
def rdU64 (b : Bytes) : Res (Nat × Bytes) := if !hasRemaining b 8 then .err else getInt 8 b

/-- `cursor.rs:38-46` `read_string`. -/
def rdString (b : Bytes) : Res (Str × Bytes) := do
  let (len, b) ← rdU32 b
  if !hasRemaining b len then .err
  else do
    let (chunk, b) ← getBytes len b
    if validUtf8 chunk then .ok (chunk, b) else .err

/-- `cursor.rs:48-51` `read_remaining`. -/
def rdRemaining (b : Bytes) : Res (Bytes × Bytes) := getBytes b.length b

/-- `cursor.rs:53-60` `read_uuid_bytes`. -/
def rdUuid (b : Bytes) : Res (Bytes × Bytes) := if !hasRemaining b 16 then .err else getBytes 16 b

/-! ### Options -/

/-- `store/tcp.rs:25-29` -/
structure SetOpts where
  ttl : Option Nat
  deriving DecidableEq, Repr

/-- `queue/options.rs:7-12` -/
structure QueueOpts where
  visibilityTimeoutMs : Option Nat
  maxRetries : Option Nat
  deriving DecidableEq, Repr

/-- `queue/options.rs:14-18` -/
structure PushOpts where
  priority : Option Nat
  deriving DecidableEq, Repr

/-- `queue/options.rs:20-25` -/
structure ConsumeOpts where
  batchSize : Option Nat
  waitMs : Option Nat
  deriving DecidableEq, Repr

/-- `pub-sub/options.rs:7-12` -/
structure PubOpts where
  retain : Option Bool
  ttl : Option Nat
  deriving DecidableEq, Repr

/-- `stream/options.rs:6-17` -/
structure StreamOpts where
  retention : Option (Option Nat × Option Nat)
  deriving DecidableEq, Repr

/-- `serde_json::from_str` at the six option types. -/
structure Serde where
  set : Str → Option SetOpts
  queue : Str → Option QueueOpts
  push : Str → Option PushOpts
  consume : Str → Option ConsumeOpts
  pub : Str → Option PubOpts
  stream : Str → Option StreamOpts

/-- `JSON.stringify` of the corresponding objects in the client. -/
structure Printer where
  set : SetOpts → Str
  queue : QueueOpts → Str
  push : PushOpts → Str
  consume : ConsumeOpts → Str
  pub : PubOpts → Str
  stream : StreamOpts → Str

/-- The commands of the four brokers (`store/tcp.rs:31-36`, `queue/tcp.rs:40-53`, `pub-sub/tcp.rs:27-32`,
`stream/tcp.rs:34-45`). -/
inductive Cmd where
  | mapSet (key : Str) (opts : SetOpts) (value : Bytes)
  | mapGet (key : Str)
  | mapDel (key : Str)
  | qCreate (q : Str) (opts : QueueOpts)
  | qPush (q : Str) (opts : PushOpts) (payload : Bytes)
  | qConsume (q : Str) (opts : ConsumeOpts)
  | qAck (id : Bytes) (q : Str)
  | qNack (id : Bytes) (q : Str) (reason : Str)
  | qExists (q : Str)
  | qDelete (q : Str)
  | qPeek (q : Str) (limit offset : Nat)
  | qMove (q : Str) (id : Bytes)
  | qDelDlq (q : Str) (id : Bytes)
  | qPurge (q : Str)
  | publish (topic : Str) (opts : PubOpts) (payload : Bytes)
  | subscribe (topic : Str)
  | unsubscribe (topic : Str)
  | sCreate (topic : Str) (opts : StreamOpts)
  | sPub (topic : Str) (payload : Bytes)
  | sFetch (topic group consumer : Str) (generation limit waitMs : Nat)
  | sJoin (group topic : Str)
  | sAck (topic group consumer : Str) (generation seq : Nat)
  | sSeek (topic group : Str) (toEnd : Bool)
  | sExists (topic : Str)
  | sDelete (topic : Str)
  | sLeave (topic group consumer : Str) (generation : Nat)
  deriving DecidableEq, Repr

/-- `store/tcp.rs:38-60` `StoreCommand::parse`. -/
def parseStore (sd : Serde) (op : UInt8) (b : Bytes) : Res Cmd :=
  match op.toNat with
  | 0x02 => do
    let (key, b) ← rdString b
    let (json, b) ← rdString b
    let opts ← Res.ofOption (sd.set json)
    let (rest, _) ← rdRemaining b
    .ok (.mapSet key opts rest)
  | 0x03 => do let (key, _) ← rdString b; .ok (.mapGet key)
  | 0x04 => do let (key, _) ← rdString b; .ok (.mapDel key)
  | _ => .err

/-- `queue/tcp.rs:55-122` `QueueCommand::parse`. -/
def parseQueue (sd : Serde) (op : UInt8) (b : Bytes) : Res Cmd :=
  match op.toNat with
  | 0x10 => do
    let (q, b) ← rdString b
    let (json, _) ← rdString b
    let opts ← Res.ofOption (sd.queue json)
    .ok (.qCreate q opts)
  | 0x11 => do
    let (q, b) ← rdString b
    let (json, b) ← rdString b
    let opts ← Res.ofOption (sd.push json)
    let (rest, _) ← rdRemaining b
    .ok (.qPush q opts rest)
  | 0x12 => do
    let (q, b) ← rdString b
    let (json, _) ← rdString b
    let opts ← Res.ofOption (sd.consume json)
    .ok (.qConsume q opts)
  | 0x13 => do
    let (id, b) ← rdUuid b
    let (q, _) ← rdString b
    .ok (.qAck id q)
  | 0x1A => do
    let (id, b) ← rdUuid b
    let (q, b) ← rdString b
    let (reason, _) ← rdString b
    .ok (.qNack id q reason)
  | 0x14 => do let (q, _) ← rdString b; .ok (.qExists q)
  | 0x15 => do let (q, _) ← rdString b; .ok (.qDelete q)
  | 0x16 => do
    let (q, b) ← rdString b
    let (limit, b) ← rdU32 b
    let (offset, _) ← rdU32 b
    .ok (.qPeek q limit offset)
  | 0x17 => do
    let (q, b) ← rdString b
    let (id, _) ← rdUuid b
    .ok (.qMove q id)
  | 0x18 => do
    let (q, b) ← rdString b
    let (id, _) ← rdUuid b
    .ok (.qDelDlq q id)
  | 0x19 => do let (q, _) ← rdString b; .ok (.qPurge q)
  | _ => .err

/-- `pub-sub/tcp.rs:34-56` `PubSubCommand::parse`. -/
def parsePubSub (sd : Serde) (op : UInt8) (b : Bytes) : Res Cmd :=
  match op.toNat with
  | 0x21 => do
    let (topic, b) ← rdString b
    let (json, b) ← rdString b
    let opts ← Res.ofOption (sd.pub json)
    let (rest, _) ← rdRemaining b
    .ok (.publish topic opts rest)
  | 0x22 => do let (topic, _) ← rdString b; .ok (.subscribe topic)
  | 0x23 => do let (topic, _) ← rdString b; .ok (.unsubscribe topic)
  | _ => .err

/-- `stream/tcp.rs:47-112` `StreamCommand::parse`. -/
def parseStream (sd : Serde) (op : UInt8) (b : Bytes) : Res Cmd :=
  match op.toNat with
  | 0x30 => do
    let (topic, b) ← rdString b
    let (json, _) ← rdString b
    let opts ← Res.ofOption (sd.stream json)
    .ok (.sCreate topic opts)
  | 0x31 => do let (topic, b) ← rdString b; let (rest, _) ← rdRemaining b; .ok (.sPub topic rest)
  | 0x32 => do
    let (topic, b) ← rdString b
    let (group, b) ← rdString b
    let (consumer, b) ← rdString b
    let (generation, b) ← rdU64 b
    let (limit, b) ← rdU32 b
    let (waitMs, _) ← rdU32 b
    .ok (.sFetch topic group consumer generation limit waitMs)
  | 0x33 => do
    let (group, b) ← rdString b
    let (topic, _) ← rdString b
    .ok (.sJoin group topic)
  | 0x34 => do
    let (topic, b) ← rdString b
    let (group, b) ← rdString b
    let (consumer, b) ← rdString b
    let (generation, b) ← rdU64 b
    let (seq, _) ← rdU64 b
    .ok (.sAck topic group consumer generation seq)
  | 0x38 => do
    let (topic, b) ← rdString b
    let (group, b) ← rdString b
    let (target, _) ← rdU8 b
    match target with
    | 0 => .ok (.sSeek topic group false)
    | 1 => .ok (.sSeek topic group true)
    | _ => .err
  | 0x35 => do let (topic, _) ← rdString b; .ok (.sExists topic)
  | 0x36 => do let (topic, _) ← rdString b; .ok (.sDelete topic)
  | 0x39 => do
    let (topic, b) ← rdString b
    let (group, b) ← rdString b
    let (consumer, b) ← rdString b
    let (generation, _) ← rdU64 b
    .ok (.sLeave topic group consumer generation)
  | _ => .err

/-- Who handles an opcode. -/
inductive Route where
  | echo
  | store
  | queue
  | pubsub
  | stream
  | unknown
  deriving DecidableEq, Repr

/-- `dispatcher.rs:24-43`: the `match`, with the ranges `OPCODE_MIN..=OPCODE_MAX` of the four brokers. -/
def route (op : UInt8) : Route :=
  let n := op.toNat
  if n = 0x00 then .echo
  else if 0x02 ≤ n ∧ n ≤ 0x0F then .store
  else if 0x10 ≤ n ∧ n ≤ 0x1F then .queue
  else if 0x21 ≤ n ∧ n ≤ 0x2F then .pubsub
  else if 0x30 ≤ n ∧ n ≤ 0x3F then .stream
  else .unknown

/-- The parsers as the dispatcher reaches them. -/
def parse (sd : Serde) (op : UInt8) (b : Bytes) : Res Cmd :=
  match route op with
  | .store => parseStore sd op b
  | .queue => parseQueue sd op b
  | .pubsub => parsePubSub sd op b
  | .stream => parseStream sd op b
  | .echo => .err
  | .unknown => .err

/-- `dispatcher.rs:22-43` `dispatch` and the `handle` functions, which return the parse error before touching a
broker (`store/tcp.rs:66-70`, `queue/tcp.rs:193-197`, `pub-sub/tcp.rs:62-72`, `stream/tcp.rs:166-176`).  `exec` is the
rest of the `handle` functions; `parseError` stands for the error text; the answer `none` is a panic of the task. -/
def dispatch {E : Type} (sd : Serde) (exec : Cmd → E → E × Option Response) (parseError : Str) (op : UInt8)
    (payload : Bytes) (e : E) : E × Option Response :=
  match route op with
  | .echo =>
    match rdRemaining payload with
    | .ok (b, _) => (e, some (.data b))
    | .err => (e, some (.error parseError))
    | .panic => (e, none)
  | .unknown => (e, some (.error parseError))
  | _ =>
    match parse sd op payload with
    | .ok cmd => exec cmd e
    | .err => (e, some (.error parseError))
    | .panic => (e, none)

/-! ### Answers of the server -/

/-- `queue/tcp.rs:128-143` `ConsumeBatchResponse`: id and payload of each message. -/
def wireConsume (msgs : List (Bytes × Bytes)) : Bytes :=
  be32 msgs.length ++ msgs.flatMap (fun m => m.1 ++ be32 m.2.length ++ m.2)

/-- What a dead-letter page shows of a message. -/
structure DlqItem where
  id : Bytes
  payload : Bytes
  attempts : Nat
  reason : Str
  deriving DecidableEq, Repr

/-- `queue/tcp.rs:145-167` `PeekDlqResponse`. -/
def wirePeek (total : Nat) (msgs : List DlqItem) : Bytes :=
  be32 total ++ be32 msgs.length ++
    msgs.flatMap (fun m => m.id ++ be32 m.payload.length ++ m.payload ++ be32 m.attempts ++ be32 m.reason.length ++ m.reason)

/-- `queue/tcp.rs:169-177` `BoolResponse`. -/
def wireBool (b : Bool) : Bytes := [if b then 1 else 0]

/-- `queue/tcp.rs:179-187` `CountResponse`. -/
def wireCount (n : Nat) : Bytes := be32 n

/-- `stream/tcp.rs:119-127` `PublishResponse`. -/
def wireSeq (n : Nat) : Bytes := be64 n

/-- `stream/domain/message.rs`: a stream message. -/
structure SMsg where
  seq : Nat
  timestamp : Nat
  payload : Bytes
  deriving DecidableEq, Repr

/-- `stream/tcp.rs:129-143` `FetchResponse`. -/
def wireFetch (msgs : List SMsg) : Bytes :=
  be32 msgs.length ++ msgs.flatMap (fun m => be64 m.seq ++ be64 m.timestamp ++ be32 m.payload.length ++ m.payload)

/-- `stream/tcp.rs:145-160` `JoinGroupResponse`. -/
def wireJoin (ackFloor generation : Nat) (consumer : Str) : Bytes :=
  be64 ackFloor ++ be64 generation ++ be32 consumer.length ++ consumer

/-- `pub-sub/domain/types.rs:36-45` `get_network_packet`. -/
def wirePush (topic : Str) (payload : Bytes) : Bytes := be32 topic.length ++ topic ++ payload

/-! ### The client's writer -/

/-- `codec.ts:107-115` `string`. -/
def tsString (s : Str) : Bytes := be32 s.length ++ s

/-- Values an application passes to the client: a `Buffer`, a string, or anything else, which travels as JSON text
(`json` holds that text). -/
inductive Val where
  | raw (b : Bytes)
  | str (s : Str)
  | json (text : Str)
  deriving DecidableEq, Repr

/-- `codec.ts:142-163` `any`. -/
def tsAny : Val → Bytes
  | .raw b => 0 :: b
  | .str s => 1 :: s
  | .json t => 2 :: t

/-- `codec.ts:131-134`: the value of a hexadecimal digit. -/
def nibble (c : UInt8) : Option Nat :=
  let n := c.toNat
  if 0x30 ≤ n ∧ n ≤ 0x39 then some (n - 0x30)
  else if 0x61 ≤ n ∧ n ≤ 0x66 then some (n - 0x57)
  else if 0x41 ≤ n ∧ n ≤ 0x46 then some (n - 0x37)
  else none

/-- `codec.ts:121-140` `uuid`: the loop, with the pending high nibble; `none`: the call throws. -/
def tsUuid : Option Nat → Str → Option Bytes
  | _, [] => some []
  | high, c :: t =>
    if c = 0x2D then tsUuid high t
    else
      match nibble c with
      | none => none
      | some n =>
        match high with
        | none => tsUuid (some n) t
        | some h => (tsUuid none t).map (fun r => UInt8.ofNat (h * 16 + n) :: r)

/-- `codec.ts:24-28` `readUUID`: lower-case hexadecimal digits. -/
def hexDigit (n : Nat) : UInt8 := UInt8.ofNat (if n < 10 then 0x30 + n else 0x57 + n)

def hexOf (b : Bytes) : Str := b.flatMap (fun x => [hexDigit (x.toNat / 16), hexDigit (x.toNat % 16)])

/-- What the client writes for a command: opcode and body.  `store.ts:10-27`, `queue.ts:24-124`, `pubsub.ts:10-23`,
`stream.ts:78-222`.  Ids are handed to the application, and come back, as hexadecimal text. -/
def tsBody (pr : Printer) : Cmd → Option (UInt8 × Bytes)
  | .mapSet key opts value => some (0x02, tsString key ++ tsString (pr.set opts) ++ value)
  | .mapGet key => some (0x03, tsString key)
  | .mapDel key => some (0x04, tsString key)
  | .qCreate q opts => some (0x10, tsString q ++ tsString (pr.queue opts))
  | .qPush q opts payload => some (0x11, tsString q ++ tsString (pr.push opts) ++ payload)
  | .qConsume q opts => some (0x12, tsString q ++ tsString (pr.consume opts))
  | .qAck id q => (tsUuid none (hexOf id)).map (fun u => (0x13, u ++ tsString q))
  | .qNack id q reason => (tsUuid none (hexOf id)).map (fun u => (0x1A, u ++ tsString q ++ tsString reason))
  | .qExists q => some (0x14, tsString q)
  | .qDelete q => some (0x15, tsString q)
  | .qPeek q limit offset => some (0x16, tsString q ++ be32 limit ++ be32 offset)
  | .qMove q id => (tsUuid none (hexOf id)).map (fun u => (0x17, tsString q ++ u))
  | .qDelDlq q id => (tsUuid none (hexOf id)).map (fun u => (0x18, tsString q ++ u))
  | .qPurge q => some (0x19, tsString q)
  | .publish topic opts payload => some (0x21, tsString topic ++ tsString (pr.pub opts) ++ payload)
  | .subscribe topic => some (0x22, tsString topic)
  | .unsubscribe topic => some (0x23, tsString topic)
  | .sCreate topic opts => some (0x30, tsString topic ++ tsString (pr.stream opts))
  | .sPub topic payload => some (0x31, tsString topic ++ payload)
  | .sFetch topic group consumer generation limit waitMs =>
    some (0x32, tsString topic ++ tsString group ++ tsString consumer ++ be64 generation ++ be32 limit ++ be32 waitMs)
  | .sJoin group topic => some (0x33, tsString group ++ tsString topic)
  | .sAck topic group consumer generation seq =>
    some (0x34, tsString topic ++ tsString group ++ tsString consumer ++ be64 generation ++ be64 seq)
  | .sSeek topic group toEnd => some (0x38, tsString topic ++ tsString group ++ [if toEnd then 1 else 0])
  | .sExists topic => some (0x35, tsString topic)
  | .sDelete topic => some (0x36, tsString topic)
  | .sLeave topic group consumer generation =>
    some (0x39, tsString topic ++ tsString group ++ tsString consumer ++ be64 generation)

/-! ### The client's reader: value and rest; `none`: the call throws `RangeError` -/

/-- `codec.ts:7` `readU8`. -/
def tsU8 (b : Bytes) : Option (Nat × Bytes) := if 1 ≤ b.length then some (beVal (b.take 1), b.drop 1) else none

/-- `codec.ts:8` `readU32`. -/
def tsU32 (b : Bytes) : Option (Nat × Bytes) := if 4 ≤ b.length then some (beVal (b.take 4), b.drop 4) else none

/-- `codec.ts:9` `readU64`. -/
def tsU64 (b : Bytes) : Option (Nat × Bytes) := if 8 ≤ b.length then some (beVal (b.take 8), b.drop 8) else none

/-- `codec.ts:11-15` `readBuffer`: `subarray` stops at the end of the buffer. -/
def tsBuffer (len : Nat) (b : Bytes) : Bytes × Bytes := (b.take len, b.drop len)

/-- `codec.ts:17-22` `readString`. -/
def tsReadString (b : Bytes) : Option (Str × Bytes) := (tsU32 b).map (fun r => tsBuffer r.1 r.2)

/-- `codec.ts:24-28` `readUUID`. -/
def tsReadUuid (b : Bytes) : Str × Bytes := (hexOf (b.take 16), b.drop 16)

/-- `codec.ts:34-48` `decodeAny` (`JSON.parse` of the text is left to the reader of `Val`; an empty JSON text is read
as `null`). -/
def tsDecodeAny : Bytes → Option Val
  | [] => none
  | t :: rest =>
    if t = 2 then some (if rest = [] then .json [110, 117, 108, 108] else .json rest)
    else if t = 1 then some (.str rest)
    else some (.raw rest)

/-- `count` times. -/
def tsMany {α : Type} (one : Bytes → Option (α × Bytes)) : Nat → Bytes → Option (List α × Bytes)
  | 0, b => some ([], b)
  | n + 1, b =>
    match one b with
    | none => none
    | some (a, b) => (tsMany one n b).map (fun r => (a :: r.1, r.2))

/-- `queue.ts:60-65`: one consumed message. -/
def tsConsumeOne (b : Bytes) : Option ((Str × Val) × Bytes) := do
  let (id, b) := tsReadUuid b
  let (len, b) ← tsU32 b
  let (buf, b) := tsBuffer len b
  let v ← tsDecodeAny buf
  some ((id, v), b)

/-- `queue.ts:50-68` `consume`. -/
def tsConsume (b : Bytes) : Option (List (Str × Val)) := do
  let (count, b) ← tsU32 b
  (tsMany tsConsumeOne count b).map (·.1)

/-- `queue.ts:92-99`: one dead letter. -/
def tsPeekOne (b : Bytes) : Option ((Str × Val × Nat × Str) × Bytes) := do
  let (id, b) := tsReadUuid b
  let (len, b) ← tsU32 b
  let (buf, b) := tsBuffer len b
  let v ← tsDecodeAny buf
  let (attempts, b) ← tsU32 b
  let (reason, b) ← tsReadString b
  some ((id, v, attempts, reason), b)

/-- `queue.ts:81-102` `peekDLQ`. -/
def tsPeek (b : Bytes) : Option (Nat × List (Str × Val × Nat × Str)) := do
  let (total, b) ← tsU32 b
  let (count, b) ← tsU32 b
  (tsMany tsPeekOne count b).map (fun r => (total, r.1))

/-- `queue.ts:104-118`: `readU8() === 1`. -/
def tsBool (b : Bytes) : Option Bool := (tsU8 b).map (fun r => decide (r.1 = 1))

/-- `queue.ts:120-123` `purgeDLQ`. -/
def tsCount (b : Bytes) : Option Nat := (tsU32 b).map (·.1)

/-- `stream.ts:144-148`: one fetched message. -/
def tsFetchOne (b : Bytes) : Option ((Nat × Val) × Bytes) := do
  let (seq, b) ← tsU64 b
  let (_, b) ← tsU64 b
  let (len, b) ← tsU32 b
  let (buf, b) := tsBuffer len b
  let v ← tsDecodeAny buf
  some ((seq, v), b)

/-- `stream.ts:139-149` -/
def tsFetch (b : Bytes) : Option (List (Nat × Val)) := do
  let (count, b) ← tsU32 b
  (tsMany tsFetchOne count b).map (·.1)

/-- `stream.ts:99-101`: generation and consumer id. -/
def tsJoin (b : Bytes) : Option (Nat × Str) := do
  let (_, b) ← tsU64 b
  let (generation, b) ← tsU64 b
  let (consumer, _) ← tsReadString b
  some (generation, consumer)

/-- `connection.ts:196-201`: topic and value of a push. -/
def tsPush (b : Bytes) : Option (Str × Val) := do
  let (topic, b) ← tsReadString b
  let v ← tsDecodeAny b
  some (topic, v)

/-- `connection.ts:232-233`: the text of an error answer. -/
def tsError (b : Bytes) : Option Str := (tsReadString b).map (·.1)

/-- `connection.ts:13`, `216`, `262`: `(nextId + 1) & 0xFFFFFFFF || 1`; JavaScript's `&` works on signed 32-bit integers. -/
def toInt32 (n : Int) : Int := let m := n % (2 ^ 32); if m < 2 ^ 31 then m else m - 2 ^ 32

def tsNextId (n : Int) : Int := let m := toInt32 (n + 1); if m = 0 then 1 else m

/-- The id of the `k`-th request (from 0). -/
def tsId : Nat → Int
  | 0 => 1
  | k + 1 => tsNextId (tsId k)

/-- `codec.ts:174` `writeUInt32BE`: throws outside the range. -/
def tsIdOk (n : Int) : Bool := decide (0 ≤ n ∧ n < 2 ^ 32)

end Verif.Wire
