import Verif.Proofs.Command
import Verif.Proofs.Connection
import Verif.Spec.Wire

/-!
# Wire format properties C01–C08, C63
-/

namespace Verif.Wire

theorem encode_frame (o : Outbound) :
    encode o = o.frame.ftype :: o.frame.op :: (be32 o.frame.id ++ be32 o.frame.payload.length ++ o.frame.payload) := by
  cases o with
  | response id r => cases r <;> rfl
  | push id p => rfl

/-- **C01.** What the server writes for a message is read back, by the server's own decoder (if the payload is within
its limit) and by the client's, as one frame with that type, status, id and payload; the bytes after it are untouched. -/
theorem C01_round_trip (o : Outbound) (h : o.Fits) (rest : Bytes) :
    (∀ max, o.frame.payload.length ≤ max → decode max (encode o ++ rest) = .frame o.frame rest)
    ∧ tsDecode (encode o ++ rest) = some (o.frame, rest) := by
  rw [encode_frame]
  exact ⟨fun max hm => decode_fields h.1 h.2 hm, tsDecode_fields h.1 h.2⟩

example : (Outbound.response 7 (.error [110, 111])).Fits := by decide
example : decode 100 (encode (.response 7 (.error [110, 111])) ++ [9]) = .frame ⟨2, 1, 7, [0, 0, 0, 2, 110, 111]⟩ [9] := by decide

/-- **C01.** Requests: what the client writes, the server reads back. -/
theorem C01_request (id : Nat) (op : UInt8) (body rest : Bytes) (max : Nat) (hid : id < 2 ^ 32) (hb : body.length < 2 ^ 32)
    (hm : body.length ≤ max) :
    decode max (tsFinish id op body ++ rest) = .frame ⟨1, op, id, body⟩ rest :=
  decode_fields hid hb hm

/-- **C02.** The frames the server hands on, and whether a protocol error ended the connection, depend only on the
bytes received, not on how they were cut into reads. -/
theorem C02_chunking (max : Nat) (chunks chunks' : List Bytes) (h : chunks.flatten = chunks'.flatten) :
    (Reader.run max {} chunks).frames = (Reader.run max {} chunks').frames
    ∧ (Reader.run max {} chunks).err = (Reader.run max {} chunks').err
    ∧ ((Reader.run max {} chunks).err = false → (Reader.run max {} chunks).buf = (Reader.run max {} chunks').buf) := by
  have key : ∀ cs : List Bytes, (Reader.run max {} cs).frames = (drain max cs.flatten).frames
      ∧ (Reader.run max {} cs).err = (drain max cs.flatten).err
      ∧ ((Reader.run max {} cs).err = false → (Reader.run max {} cs).buf = (drain max cs.flatten).rest) := by
    intro cs
    induction cs using snoc_ind with
    | h0 =>
      have : drain max [] = ⟨[], [], false⟩ := rfl
      exact ⟨rfl, rfl, fun _ => rfl⟩
    | h1 cs c ih =>
      have hs : Reader.run max {} (cs ++ [c]) = (Reader.run max {} cs).feed max c := by
        unfold Reader.run; rw [List.foldl_append]; rfl
      have hf : (cs ++ [c]).flatten = cs.flatten ++ c := by simp
      rw [hs, hf, drain_append]
      generalize Reader.run max {} cs = s at ih
      obtain ⟨h1, h2, h3⟩ := ih
      unfold Reader.feed
      by_cases he : s.err = true
      · rw [if_pos he, if_pos (by rw [← h2]; exact he)]
        exact ⟨h1, he, fun h => absurd he (by rw [h]; decide)⟩
      · have he' : s.err = false := by simpa using he
        rw [if_neg he, if_neg (by rw [← h2]; exact he), ← h3 he', ← h1]
        exact ⟨rfl, rfl, fun _ => rfl⟩
  obtain ⟨a1, a2, a3⟩ := key chunks
  obtain ⟨b1, b2, b3⟩ := key chunks'
  rw [h] at a1 a2 a3
  refine ⟨a1.trans b1.symm, a2.trans b2.symm, fun he => (a3 he).trans (b3 ?_).symm⟩
  rw [b2, ← a2]; exact he

example : (Reader.run 4 {} [[1, 3, 0, 0], [0, 5, 0, 0, 0, 2, 8], [9, 1, 4, 0, 0, 0, 6, 0, 0, 0], [0]]).frames
    = [⟨1, 3, 5, [8, 9]⟩, ⟨1, 4, 6, []⟩] := by decide

/-- **C02.** The same for the client library. -/
theorem C02_client (chunks chunks' : List Bytes) (h : chunks.flatten = chunks'.flatten) : tsRun chunks = tsRun chunks' := by
  have key : ∀ cs : List Bytes, tsRun cs = tsDrain cs.flatten := by
    intro cs
    induction cs using snoc_ind with
    | h0 => rfl
    | h1 cs c ih =>
      have hs : tsRun (cs ++ [c]) = tsFeed (tsRun cs) c := by unfold tsRun; rw [List.foldl_append]; rfl
      have hf : (cs ++ [c]).flatten = cs.flatten ++ c := by simp
      rw [hs, hf, tsDrain_append, ← ih]
      rfl
  rw [key, key, h]

/-- **C01 and C02 together.** Whatever the server writes on a connection, and however TCP cuts it, the client reads
exactly the messages written, in order, with nothing left over. -/
theorem C02_everything_arrives (os : List Outbound) (hf : ∀ o ∈ os, o.Fits) (chunks : List Bytes)
    (h : chunks.flatten = os.flatMap encode) : tsRun chunks = (os.map Outbound.frame, []) := by
  have h1 : tsRun chunks = tsRun (os.map encode) := C02_client _ _ (by rw [h, List.flatMap_def])
  rw [h1]
  clear h h1 chunks
  induction os using snoc_ind with
  | h0 => rfl
  | h1 os o ih =>
    have hs : tsRun ((os ++ [o]).map encode) = tsFeed (tsRun (os.map encode)) (encode o) := by
      unfold tsRun; rw [List.map_append, List.foldl_append]; rfl
    rw [hs, ih (fun x hx => hf x (List.mem_append.mpr (.inl hx)))]
    have ho := (C01_round_trip o (hf o (List.mem_append.mpr (.inr (List.mem_singleton.mpr rfl)))) []).2
    unfold tsFeed
    rw [List.append_nil] at ho
    show ((os.map Outbound.frame) ++ (tsDrain ([] ++ encode o)).1, (tsDrain ([] ++ encode o)).2) = _
    rw [List.nil_append, tsDrain_some ho, List.map_append]
    rfl

example : tsRun [[2, 0, 0], [0, 0, 7, 0, 0, 0, 0, 3], [0, 0, 0, 0, 0, 0, 0, 0, 1, 5]]
    = ([Outbound.response 7 .ok, .push 0 [5]].map Outbound.frame, []) := by decide

/-- **C03.** A header announcing more than the limit is refused as soon as its ten bytes are there. -/
theorem C03_refused (max : Nat) (t op : UInt8) (id len : Nat) (rest : Bytes) (hlen : len < 2 ^ 32) (h : len > max) :
    decode max (t :: op :: (be32 id ++ be32 len) ++ rest) = .err := by
  have h6 : ((t :: op :: (be32 id ++ be32 len) ++ rest).drop 6).take 4 = be32 len := rfl
  unfold decode headerSize
  have : (t :: op :: (be32 id ++ be32 len) ++ rest).length = 10 + rest.length := by simp [be32_length]; omega
  rw [if_neg (by omega)]
  simp only [h6, beVal_be32_lt hlen]
  rw [if_pos h]

/-- **C03.** Whatever arrives: no frame handed on is longer than the limit, and as long as the connection lives the
buffer holds less than one header and one maximal payload. -/
theorem C03_bounded (max : Nat) (chunks : List Bytes) :
    (∀ f ∈ (Reader.run max {} chunks).frames, f.payload.length ≤ max)
    ∧ ((Reader.run max {} chunks).err = false → (Reader.run max {} chunks).buf.length < 10 + max) := by
  obtain ⟨a, b, c⟩ := C02_chunking max chunks [chunks.flatten] (by simp)
  have h1 : Reader.run max {} [chunks.flatten] =
      { frames := [] ++ (drain max chunks.flatten).frames, buf := (drain max chunks.flatten).rest, err := (drain max chunks.flatten).err } := rfl
  rw [h1] at a b c
  refine ⟨?_, fun he => ?_⟩
  · rw [a]; exact drain_payloads max _
  · rw [c he]
    exact decode_need_length (drain_idem max _ (b.symm.trans he))

example : decode 4 [1, 2, 0, 0, 0, 1, 0, 0, 0, 5] = .err := by decide

/-- **C04.** Any payload under any opcode yields a command or a parse error; the readers never run past the end (which
would panic).  If it is a parse error, or the opcode is not a command, the engine is left as it was and the answer is an
error (or, for the echo opcode, the payload).  Whether the *command* panics is up to its handler. -/
theorem C04_total {E : Type} (sd : Serde) (exec : Cmd → E → E × Option Response) (msg : Str) (op : UInt8) (payload : Bytes)
    (e : E) :
    parse sd op payload ≠ .panic
    ∧ (∀ cmd, parse sd op payload = .ok cmd → route op ≠ .echo ∧ route op ≠ .unknown
        ∧ dispatch sd exec msg op payload e = exec cmd e)
    ∧ (parse sd op payload = .err →
        dispatch sd exec msg op payload e = (e, some (.error msg)) ∨ (op = 0 ∧ dispatch sd exec msg op payload e = (e, some (.data payload)))) := by
  have hp := parse_ne sd op payload
  refine ⟨hp, fun cmd hc => ?_, fun hc => ?_⟩
  · have h1 : route op ≠ .echo := fun h => by unfold parse at hc; rw [h] at hc; cases hc
    have h2 : route op ≠ .unknown := fun h => by unfold parse at hc; rw [h] at hc; cases hc
    refine ⟨h1, h2, ?_⟩
    unfold dispatch
    cases hr : route op <;> first | exact absurd hr h1 | exact absurd hr h2 | (simp only [hc])
  · unfold dispatch
    cases hr : route op with
    | echo =>
      right
      refine ⟨?_, by simp only [rdRemaining_eq]⟩
      unfold route at hr
      simp only at hr
      split at hr
      · next h => exact UInt8.toNat_inj.mp h
      · repeat' split at hr
        all_goals cases hr
    | unknown => exact .inl rfl
    | store | queue | pubsub | stream => left; simp only [hc]

/-- A serde that reads one letter options, for the examples. -/
def exSerde : Serde where
  set s := if s = [123, 125] then some ⟨none⟩ else none
  queue s := if s = [123, 125] then some ⟨none, none⟩ else none
  push s := if s = [123, 125] then some ⟨none⟩ else none
  consume s := if s = [123, 125] then some ⟨none, none⟩ else none
  pub s := if s = [123, 125] then some ⟨none, none⟩ else none
  stream s := if s = [123, 125] then some ⟨none⟩ else none

def exPrinter : Printer where
  set _ := [123, 125]
  queue _ := [123, 125]
  push _ := [123, 125]
  consume _ := [123, 125]
  pub _ := [123, 125]
  stream _ := [123, 125]

example : parse exSerde 0x11 [0, 0, 0, 1, 97, 0, 0, 0, 2, 123, 125, 7] = .ok (.qPush [97] ⟨none⟩ [7]) := by decide
example : parse exSerde 0x11 [0, 0, 0, 1, 97, 0, 0, 0, 3, 123, 125] = .err := by decide
example : parse exSerde 0x03 [0, 0, 0, 1, 0xC0] = .err := by decide

/-- **C05.** For every command within the wire limits: the client produces a body, the frame it writes is read by the
server as a request with that id, opcode and body, and the body is parsed into the same command.  (That serde reads
back the JSON options `JSON.stringify` wrote is a hypothesis on those two libraries.) -/
theorem C05_understood (sd : Serde) (pr : Printer) (cmd : Cmd) (hf : cmd.Fits) (hj : cmd.Json sd pr) :
    ∃ op body, tsBody pr cmd = some (op, body) ∧ parse sd op body = .ok cmd
      ∧ ∀ id rest max, id < 2 ^ 32 → body.length < 2 ^ 32 → body.length ≤ max →
          decode max (tsFinish id op body ++ rest) = .frame ⟨1, op, id, body⟩ rest := by
  obtain ⟨op, body, h1, h2⟩ := parse_tsBody hf hj
  exact ⟨op, body, h1, h2, fun id rest max hid hb hm => C01_request id op body rest max hid hb hm⟩

example : (Cmd.sFetch [97] [98, 0xC3, 0xA9] [99] 5 10 0).Fits ∧ (Cmd.sFetch [97] [98, 0xC3, 0xA9] [99] 5 10 0).Json exSerde exPrinter :=
  ⟨by simp only [Cmd.Fits]; decide, trivial⟩
example : (Cmd.qPush [97] ⟨none⟩ [2, 49]).Fits ∧ (Cmd.qPush [97] ⟨none⟩ [2, 49]).Json exSerde exPrinter :=
  ⟨by simp only [Cmd.Fits]; decide, by simp only [Cmd.Json]; decide⟩

/-- **C05.** Message ids: the text the client shows for an id is turned back into the same sixteen bytes, with dashes
put anywhere or not at all. -/
theorem C05_ids (id : Bytes) (text : Str) (h : text.filter (fun c => c ≠ 0x2D) = hexOf id) : tsUuid none text = some id := by
  rw [tsUuid_dashes, h, tsUuid_hexOf]

example : tsUuid none [0x61, 0x2D, 0x46, 0x30, 0x39] = some [0xAF, 0x09] := by decide

/-- **C05/C06.** A value written by one client is the value another client reads. -/
theorem C06_values (v : Val) (h : v.Writable) : tsDecodeAny (tsAny v) = some v := tsDecodeAny_tsAny h

example : (Val.json [91, 93]).Writable ∧ (Val.raw []).Writable ∧ (Val.str []).Writable := by decide

/-- **C06** (partial: payloads must not be empty, see `C06_violated_empty_payload`).  A consumed batch reaches the
application as the same ids (as text) and values, in the same order. -/
theorem C06_consume_partial (msgs : List (Bytes × Bytes)) (val : Bytes × Bytes → Val) (hl : msgs.length < 2 ^ 32)
    (hm : ∀ m ∈ msgs, m.1.length = 16 ∧ m.2.length < 2 ^ 32) (hv : ∀ m ∈ msgs, tsDecodeAny m.2 = some (val m)) :
    tsConsume (wireConsume msgs) = some (msgs.map (fun m => (hexOf m.1, val m))) := by
  rw [tsConsume_wire msgs hl hm]
  exact mapM_option_map (fun m : Bytes × Bytes => tsDecodeAny m.2) (fun m v => (hexOf m.1, v)) val msgs hv

/-- **C06** (partial likewise).  Dead-letter pages. -/
theorem C06_peek_partial (total : Nat) (msgs : List DlqItem) (val : DlqItem → Val) (ht : total < 2 ^ 32)
    (hl : msgs.length < 2 ^ 32)
    (hm : ∀ m ∈ msgs, m.id.length = 16 ∧ m.payload.length < 2 ^ 32 ∧ m.attempts < 2 ^ 32 ∧ m.reason.length < 2 ^ 32)
    (hv : ∀ m ∈ msgs, tsDecodeAny m.payload = some (val m)) :
    tsPeek (wirePeek total msgs) = some (total, msgs.map (fun m => (hexOf m.id, val m, m.attempts, m.reason))) := by
  rw [tsPeek_wire total msgs ht hl hm,
    mapM_option_map (fun m : DlqItem => tsDecodeAny m.payload) (fun m v => (hexOf m.id, v, m.attempts, m.reason)) val msgs hv]
  rfl

/-- **C06** (partial likewise).  Fetched stream messages. -/
theorem C06_fetch_partial (msgs : List SMsg) (val : SMsg → Val) (hl : msgs.length < 2 ^ 32)
    (hm : ∀ m ∈ msgs, m.seq < 2 ^ 64 ∧ m.timestamp < 2 ^ 64 ∧ m.payload.length < 2 ^ 32)
    (hv : ∀ m ∈ msgs, tsDecodeAny m.payload = some (val m)) :
    tsFetch (wireFetch msgs) = some (msgs.map (fun m => (m.seq, val m))) := by
  rw [tsFetch_wire msgs hl hm]
  exact mapM_option_map (fun m : SMsg => tsDecodeAny m.payload) (fun m v => (m.seq, v)) val msgs hv

/-- Every non-empty payload has a value, so the hypotheses `hv` above say: no payload is empty. -/
theorem decodeAny_some_iff (b : Bytes) : (∃ v, tsDecodeAny b = some v) ↔ b ≠ [] := by
  cases b with
  | nil => exact ⟨fun ⟨v, h⟩ => (by cases h), fun h => absurd rfl h⟩
  | cons t r =>
    refine ⟨fun _ h => (by cases h), fun _ => ?_⟩
    show ∃ v, (if t = 2 then some _ else if t = 1 then some _ else some _) = some v
    by_cases h2 : t = 2
    · exact ⟨_, if_pos h2⟩
    · rw [if_neg h2]
      by_cases h1 : t = 1
      · exact ⟨_, if_pos h1⟩
      · exact ⟨_, if_neg h1⟩

example : tsConsume (wireConsume [(List.replicate 16 0xAB, [1, 104, 105]), (List.replicate 16 1, [0])])
    = some [(hexOf (List.replicate 16 0xAB), .str [104, 105]), (hexOf (List.replicate 16 1), .raw [])] := by decide
example : tsPeek (wirePeek 9 [⟨List.replicate 16 1, [1, 104], 3, [110, 111]⟩])
    = some (9, [(hexOf (List.replicate 16 1), .str [104], 3, [110, 111])]) :=
  C06_peek_partial 9 _ (fun _ => .str [104]) (by decide) (by decide) (by decide) (by decide)
example : tsFetch (wireFetch [⟨300, 5, [1, 104]⟩, ⟨301, 6, [0]⟩]) = some [(300, .str [104]), (301, .raw [])] := by decide

/-- **C06.** The remaining answers. -/
theorem C06_scalars (b : Bool) (n seq ackFloor generation : Nat) (consumer : Str) (hn : n < 2 ^ 32) (hs : seq < 2 ^ 64)
    (hf : ackFloor < 2 ^ 64) (hg : generation < 2 ^ 64) (hc : consumer.length < 2 ^ 32) :
    tsBool (wireBool b) = some b
    ∧ tsCount (wireCount n) = some n
    ∧ tsU64 (wireSeq seq) = some (seq, [])
    ∧ tsJoin (wireJoin ackFloor generation consumer) = some (generation, consumer) := by
  refine ⟨by cases b <;> rfl, ?_, ?_, ?_⟩
  · unfold tsCount wireCount
    rw [← List.append_nil (be32 n), tsU32_be _ hn]
    rfl
  · unfold wireSeq
    rw [← List.append_nil (be64 seq), tsU64_be _ hs]
  · unfold tsJoin wireJoin
    simp only [List.append_assoc]
    rw [tsU64_be _ hf, some_bind]
    simp only []
    rw [tsU64_be _ hg, some_bind]
    simp only []
    rw [← List.append_nil consumer, List.append_nil, ← List.append_nil (be32 consumer.length ++ consumer), List.append_assoc,
      tsReadString_app _ hc, some_bind]

/-- **C06.** Pushes (partial: the payload must not be empty) and error texts. -/
theorem C06_push_partial (topic : Str) (payload : Bytes) (v : Val) (ht : topic.length < 2 ^ 32)
    (hv : tsDecodeAny payload = some v) : tsPush (wirePush topic payload) = some (topic, v) := by
  unfold tsPush wirePush
  rw [List.append_assoc, tsReadString_app _ ht, some_bind]
  simp only [hv]
  rfl

theorem C06_error (msg : Str) (h : msg.length < 2 ^ 32) :
    tsError (Outbound.response 0 (.error msg)).frame.payload = some msg := by
  show (tsReadString (be32 msg.length ++ msg)).map (·.1) = _
  rw [← List.append_nil msg, List.append_nil, ← List.append_nil (be32 msg.length ++ msg), List.append_assoc,
    tsReadString_app _ h]
  rfl

example : tsPush (wirePush [97] [1, 104]) = some ([97], .str [104]) := by decide

/-- **C06 is violated for empty payloads.** A message with an empty payload (any producer that does not use this
client library can send one) makes the client's decoder throw: a push is lost, and a consumed or fetched batch is
unreadable as a whole, including the other messages in it. -/
theorem C06_violated_empty_payload :
    tsPush (wirePush [97] []) = none
    ∧ tsConsume (wireConsume [(List.replicate 16 1, [1, 104]), (List.replicate 16 2, [])]) = none
    ∧ tsFetch (wireFetch [⟨1, 0, [1, 104]⟩, ⟨2, 0, []⟩]) = none := by decide

/-- **C07.** Every opcode has exactly one handler, by these disjoint ranges. -/
theorem C07_route (op : UInt8) :
    (route op = .echo ↔ op.toNat = 0) ∧ (route op = .store ↔ 0x02 ≤ op.toNat ∧ op.toNat ≤ 0x0F)
    ∧ (route op = .queue ↔ 0x10 ≤ op.toNat ∧ op.toNat ≤ 0x1F) ∧ (route op = .pubsub ↔ 0x21 ≤ op.toNat ∧ op.toNat ≤ 0x2F)
    ∧ (route op = .stream ↔ 0x30 ≤ op.toNat ∧ op.toNat ≤ 0x3F)
    ∧ (route op = .unknown ↔ op.toNat = 1 ∨ op.toNat = 0x20 ∨ 0x40 ≤ op.toNat) := by
  unfold route
  simp only
  generalize op.toNat = n
  refine ⟨?_, ?_, ?_, ?_, ?_, ?_⟩ <;> (repeat' split) <;> simp only [reduceCtorEq, false_iff, true_iff] <;> omega

/-- **C07.** In every state: the echo opcode returns its payload and changes nothing; an unknown opcode is answered
with an error and changes nothing; the command parsed from a request is the one its opcode stands for. -/
theorem C07_dispatch {E : Type} (sd : Serde) (exec : Cmd → E → E × Option Response) (msg : Str) (op : UInt8) (payload : Bytes)
    (e : E) :
    (op.toNat = 0 → dispatch sd exec msg op payload e = (e, some (.data payload)))
    ∧ (op.toNat = 1 ∨ op.toNat = 0x20 ∨ 0x40 ≤ op.toNat → dispatch sd exec msg op payload e = (e, some (.error msg)))
    ∧ (∀ cmd, parse sd op payload = .ok cmd → cmd.opcode = op.toNat) := by
  obtain ⟨h1, _, _, _, _, h6⟩ := C07_route op
  refine ⟨fun h => ?_, fun h => ?_, fun cmd h => parse_opcode h⟩
  · unfold dispatch; rw [h1.mpr h]; simp only [rdRemaining_eq]
  · unfold dispatch; rw [h6.mpr h]

example : dispatch exSerde (fun _ n => (n + 1, some .ok)) [] 0x20 [] 5 = (5, some (.error [])) := by decide
example : dispatch exSerde (fun _ n => (n + 1, some .ok)) [] 0x22 [0, 0, 0, 1, 97] 5 = (6, some .ok) := by decide

/-- **C07.** Only request frames (type byte 1) are carried out: a frame of any other type changes nothing, whatever its
opcode and payload, and is answered with an error. -/
theorem C07_only_requests {E : Type} (sd : Serde) (exec : Cmd → E → E × Option Response) (msg unsupported : Str) (f : Frame)
    (e : E) (h : f.ftype.toNat ≠ 1) :
    handleFrame (dispatch sd exec msg) unsupported f e = (e, some (.error unsupported)) := by
  unfold handleFrame
  rw [if_neg]
  intro h'
  rw [h'] at h
  exact h rfl

/-- A frame of type 3 with the opcode of a pub-sub command; as a request it is carried out. -/
example : handleFrame (dispatch exSerde (fun _ n => (n + 1, some .ok)) []) [1] ⟨3, 0x22, 7, [0, 0, 0, 1, 97]⟩ 5 = (5, some (.error [1]))
    ∧ handleFrame (dispatch exSerde (fun _ n => (n + 1, some .ok)) []) [1] ⟨1, 0x22, 7, [0, 0, 0, 1, 97]⟩ 5 = (6, some .ok) := by
  decide

/-- **C08, soundness.** Whatever the schedule: no request is answered twice, no answer carries an id that was not
requested, every answer was computed from a request with that id, and pushes arrive in the order they were sent, none
twice. -/
theorem C08_sound {E : Type} (handle : Frame → E → E × Option Response) (e : E) (evs : List CEvent) :
    let s := Conn.run handle { engine := e } evs
    (∀ id, answers id s.written ≤ requested id evs)
    ∧ (∀ id r, Outbound.response id r ∈ s.written → ∃ f ∈ reads evs, f.id = id ∧ ∃ e', (handle f e').2 = some r)
    ∧ pushesIn s.written <+: pushedOf evs := by
  refine ⟨fun id => ?_, fun id r h => answer_from e evs id r (mem_outs.mpr (.inl h)), ?_⟩
  · have := (pending_le (handle := handle) e id evs).1
    unfold Conn.pending Conn.outs at this
    rw [answers_append, answers_append] at this
    omega
  · rw [← pushes_order (handle := handle) e evs, List.append_assoc]
    exact List.prefix_append _ _

/-- **C08, completeness** (partial: provided no handler panics, see `C08_violated`).  Once the server's tasks have
nothing left to do on a live connection, every request has been answered exactly once and every push delivered, in
order.  At any earlier moment each request is in exactly one place: waiting, running, answered and not sent, sent, written. -/
theorem C08_complete_partial {E : Type} (handle : Frame → E → E × Option Response) (e : E) (evs : List CEvent)
    (hp : ∀ f e', (handle f e').2 ≠ none) :
    let s := Conn.run handle { engine := e } evs
    (s.Idle → (∀ id, answers id s.written = requested id evs) ∧ pushesIn s.written = pushedOf evs)
    ∧ ∀ id, answers id s.written + answers id s.outbound + s.answered.countP (fun a => a.1 = id) + s.running.countP (fun f => f.id = id)
        + s.inbound.countP (fun f => f.id = id) = requested id evs := by
  have h2 : ∀ id, answers id (Conn.run handle { engine := e } evs).written + answers id (Conn.run handle { engine := e } evs).outbound
      + (Conn.run handle { engine := e } evs).answered.countP (fun a => a.1 = id) + (Conn.run handle { engine := e } evs).running.countP (fun f => f.id = id)
      + (Conn.run handle { engine := e } evs).inbound.countP (fun f => f.id = id) = requested id evs := by
    intro id
    have h := (pending_le (handle := handle) e id evs).2 hp
    unfold Conn.pending Conn.outs at h
    rw [answers_append, answers_append] at h
    rw [← h]
    congr 3
    unfold answers
    rw [List.countP_map]
    rfl
  have h3 := pushes_order (handle := handle) e evs
  refine ⟨fun ⟨i1, i2, i5, i3, i4⟩ => ⟨fun id => ?_, ?_⟩, h2⟩
  · have := h2 id
    rw [i1, i2, i4, i5] at this
    exact this
  · simp only [i3, i4, pushesIn, List.append_nil] at h3
    exact h3

/-- Two requests and a push, answered out of order. -/
example : (Conn.run (fun _ n => (n + 1, some (.data [UInt8.ofNat n]))) { engine := 0 }
    [.read ⟨1, 3, 10, []⟩, .read ⟨1, 3, 11, []⟩, .spawn, .spawn, .complete 1, .post 0, .pushed [9], .bridge, .write, .complete 0,
      .write, .post 0, .write]).written = [.response 11 (.data [0]), .push 0 [9], .response 10 (.data [1])] := by decide

/-- **C08 is violated when a handler panics.** Setting a key with an enormous ttl panics in `Instant + Duration`; the
panic is swallowed and the client never gets an answer. -/
theorem C08_violated :
    let sd : Serde := { exSerde with set := fun s => if s = [123] then some ⟨some (2 ^ 64 - 1)⟩ else none }
    let handle := handleFrame (dispatch sd (storeExec 60 0) []) []
    let s := Conn.run handle { engine := ([] : Store.Map) }
      [.read ⟨1, 2, 7, [0, 0, 0, 1, 97, 0, 0, 0, 1, 123]⟩, .spawn, .complete 0]
    s.Idle ∧ requested 7 [.read ⟨1, 2, 7, [0, 0, 0, 1, 97, 0, 0, 0, 1, 123]⟩, .spawn, .complete 0] = 1
      ∧ answers 7 s.written = 0 := by
  unfold Conn.Idle
  decide

theorem tsId_succ (k : Nat) : tsId (k + 1) = tsNextId (tsId k) := rfl

theorem tsNextId_eq {n v : Int} (h : toInt32 (n + 1) = v) (h0 : v ≠ 0) : tsNextId n = v := by
  unfold tsNextId
  simp only [h]
  rw [if_neg h0]

/-- **C63** (partial: only the first 2^31 - 1 requests).  The `k`-th request has id `k + 1`: it fits the field and no
earlier request had it. -/
theorem C63_ids_partial (k : Nat) (h : k + 1 < 2 ^ 31) : tsId k = k + 1 ∧ tsIdOk (tsId k) = true ∧ ∀ j < k, tsId j ≠ tsId k := by
  have key : ∀ k : Nat, k + 1 < 2 ^ 31 → tsId k = k + 1 := by
    intro k
    induction k with
    | zero => intro _; rfl
    | succ k ih =>
      intro h
      have := ih (by omega)
      show tsNextId (tsId k) = _
      rw [this]
      rw [tsNextId_eq (v := (k : Int) + 2) (by unfold toInt32; simp only []; rw [if_pos (by omega)]; omega) (by omega)]
      omega
  have hk := key k h
  refine ⟨hk, ?_, fun j hj => ?_⟩
  · unfold tsIdOk; rw [hk]; exact decide_eq_true (by omega)
  · rw [hk, key j (by omega)]; omega

example : tsId 2 = 3 := by decide

/-- **C63 is violated.** `&` yields a signed number: request number 2^31 gets the id -2^31, and this and the following
2^31 - 1 requests all fail before anything is sent (`writeUInt32BE` throws). -/
theorem C63_violated (j : Nat) (h : j < 2 ^ 31) : tsIdOk (tsId (2 ^ 31 - 1 + j)) = false := by
  suffices ∀ j : Nat, j < 2 ^ 31 → tsId (2 ^ 31 - 1 + j) = -2 ^ 31 + (j : Int) by
    rw [this j h]; unfold tsIdOk; exact decide_eq_false (by omega)
  intro j
  induction j with
  | zero =>
    intro _
    have h1 : (2 ^ 31 - 1 + 0 : Nat) = (2 ^ 31 - 2) + 1 := by omega
    rw [h1, tsId_succ, (C63_ids_partial (2 ^ 31 - 2) (by omega)).1]
    exact tsNextId_eq (n := ((2 ^ 31 - 2 : Nat) : Int) + 1) (v := -2 ^ 31) (by unfold toInt32; simp only []; rw [if_neg (by omega)]; omega) (by omega)
  | succ j ih =>
    intro h
    have := ih (by omega)
    rw [← Nat.add_assoc, tsId_succ, this]
    rw [tsNextId_eq (v := -2 ^ 31 + (j : Int) + 1) (by unfold toInt32; simp only []; rw [if_neg (by omega)]; omega) (by omega)]
    omega

end Verif.Wire
