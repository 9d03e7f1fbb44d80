import Verif.Model.Dashboard
import Verif.Proofs.Store
import Verif.Proofs.Command
import Verif.Props.Queue
import Verif.Props.StreamGroups
import Verif.Props.StreamRestart

/-!
# C89, C90, C91: what the dashboard shows of queues, payloads and streams
-/

namespace Verif.Dashboard

open Verif.Queue (Msg DlqMsg QInner waiting inFlight deadLetters)

/-! ## C89: queues -/

/-- The text of the payload contains the search text, if there is one. -/
def Hit (lossy : Bytes → Str) (search : Option Str) (m : Msg) : Prop := ∀ s, search = some s → s <:+: lossy m.payload

theorem matches_iff (lossy : Bytes → Str) (search : Option Str) (m : Msg) : matches? lossy search m = true ↔ Hit lossy search m := by
  cases search with
  | none => simp [matches?, Hit]
  | some s => simp [matches?, Hit, Store.contains_iff]

variable (lossy : Bytes → Str)

theorem pages {α : Type} (all : List α) (size n : Nat) :
    (List.range n).flatMap (fun i => (all.drop (i * size)).take size) = all.take (n * size) := by
  induction n with
  | zero => simp
  | succ n ih => rw [List.range_succ, List.flatMap_append, ih, Nat.succ_mul, List.take_add]; simp

/-- The messages of an answer. -/
def QueueReply.list : QueueReply → List Msg
  | .messages ms _ => ms
  | _ => []

/-- C89: the list of the waiting messages.  There is a list `all` of exactly the waiting messages that match the search; the answer is
the part of it from the offset on, as long as the limit (50 if not given, at most 1000), with its length as total; and the
first `n` pages of any size up to 1000, one after the other, are the first `n * size` messages of it: none is left out or
shown twice. -/
theorem C89_pending (q : QInner) (state : Str) (search : Option Str) (h : lower state = wPending) :
    ∃ all : List Msg, all.Sublist (waiting q) ∧ (∀ m, m ∈ all ↔ m ∈ waiting q ∧ Hit lossy search m) ∧
      (∀ offset limit, queueMessages lossy (some q) { state, offset, limit, search } =
        .messages ((all.drop (offset.getD 0)).take (min (limit.getD 50) 1000)) all.length) ∧
      ∀ size ≤ 1000, ∀ n, (List.range n).flatMap
        (fun i => (queueMessages lossy (some q) { state, offset := some (i * size), limit := some size, search }).list) = all.take (n * size) := by
  have key : ∀ offset limit, queueMessages lossy (some q) { state, offset, limit, search } =
        .messages ((((waiting q).filter (matches? lossy search)).drop (offset.getD 0)).take (min (limit.getD 50) 1000))
          ((waiting q).filter (matches? lossy search)).length := by
    intro offset limit
    have h1 : lower (lower state) = wPending := by rw [h]; decide
    have h2 : lower state ≠ wDlq := by rw [h]; decide
    simp only [queueMessages, h1, if_neg h2, if_true, (Queue.C30_listing q _ _ _).1]
  refine ⟨(waiting q).filter (matches? lossy search), List.filter_sublist, fun m => ?_, key, fun size hs n => ?_⟩
  · rw [List.mem_filter, matches_iff]
  · simp only [key, QueueReply.list, Option.getD_some, Nat.min_eq_left hs]
    exact pages _ size n

/-- C89: the same for the messages in flight. -/
theorem C89_inflight (q : QInner) (state : Str) (search : Option Str) (h : lower state = wInflight) :
    ∃ all : List Msg, all.Sublist (inFlight q) ∧ (∀ m, m ∈ all ↔ m ∈ inFlight q ∧ Hit lossy search m) ∧
      (∀ offset limit, queueMessages lossy (some q) { state, offset, limit, search } =
        .messages ((all.drop (offset.getD 0)).take (min (limit.getD 50) 1000)) all.length) ∧
      ∀ size ≤ 1000, ∀ n, (List.range n).flatMap
        (fun i => (queueMessages lossy (some q) { state, offset := some (i * size), limit := some size, search }).list) = all.take (n * size) := by
  have key : ∀ offset limit, queueMessages lossy (some q) { state, offset, limit, search } =
        .messages ((((inFlight q).filter (matches? lossy search)).drop (offset.getD 0)).take (min (limit.getD 50) 1000))
          ((inFlight q).filter (matches? lossy search)).length := by
    intro offset limit
    have h1 : lower (lower state) = wInflight := by rw [h]; decide
    have h2 : lower state ≠ wDlq := by rw [h]; decide
    have h3 : wInflight ≠ wPending := by decide
    simp only [queueMessages, h1, if_neg h2, if_neg h3, if_true, (Queue.C30_listing q _ _ _).2]
  refine ⟨(inFlight q).filter (matches? lossy search), List.filter_sublist, fun m => ?_, key, fun size hs n => ?_⟩
  · rw [List.mem_filter, matches_iff]
  · simp only [key, QueueReply.list, Option.getD_some, Nat.min_eq_left hs]
    exact pages _ size n

/-- C89: the list of the dead letters, newest first, if nothing is searched for. -/
theorem C89_dead_partial (q : QInner) (query : QueueQuery) (h : lower query.state = wDlq) (_hs : query.search = none) :
    queueMessages lossy (some q) query =
      .dead (((deadLetters q).drop (query.offset.getD 0)).take (min (query.limit.getD 50) 1000)) (deadLetters q).length := by
  have h1 : (deadLetters q) = (q.dlq.map (·.2)).reverse := by
    unfold deadLetters Queue.dlqPeek
    simp only [List.drop_zero]
    rw [List.take_of_length_le (by simp)]
  simp only [queueMessages, h, if_true, h1, Queue.dlqPeek, List.length_reverse, List.length_map]

/-- C89: a queue that does not exist is reported as not found. -/
theorem C89_not_found (query : QueueQuery) : queueMessages lossy none query = .notFound := by
  simp only [queueMessages]; split <;> rfl

/-- C89 does not hold for the dead letters: the search is ignored.  One dead letter with the payload `[66]` ("B") is shown and counted in
a search for "A". -/
theorem C89_violated_search :
    let d : DlqMsg := { id := 1, payload := [66], priority := 0, attempts := 1, createdAt := 0, failedAt := 5, reason := [] }
    let q : QInner := { state := .new, dlq := [(1, d)], cfg := Queue.exCfg }
    queueMessages id (some q) { state := wDlq, search := some [65] } = .dead [d] 1 ∧ ¬ [65] <:+: d.payload := by
  refine ⟨by decide, ?_⟩
  intro h
  have := h.subset (List.mem_singleton.2 rfl)
  simp at this

/-- C89 does not hold for a state that does not exist ("ready"): there is no error but an empty list, although messages wait. -/
theorem C89_violated_state : (waiting Queue.exQ).length = 2 ∧
    queueMessages id (some Queue.exQ) { state := [114, 101, 97, 100, 121] } = .messages [] 0 := by decide

/-- "Pending", with a limit of 1: the second page. -/
example : queueMessages id (some Queue.exQ) { state := [80, 101, 110, 100, 105, 110, 103], limit := some 1, offset := some 1 } =
    .messages (((waiting Queue.exQ).drop 1).take 1) 2 := by decide
example : lower [80, 101, 110, 100, 105, 110, 103] = wPending := by decide

/-! ## C90: payloads -/

/-- What the dashboard is to show for a value: a buffer as hexadecimal digits, text as text, a JSON value as itself. -/
def expected (parse : Bytes → Option Json) : Wire.Val → Option Json
  | .raw b => some (.str ([48, 120] ++ Wire.hexOf b))
  | .str s => some (.str s)
  | .json t => parse t

/-- A value the client library can write: its text is UTF-8 and its JSON text is read by the server's JSON parser. -/
def Writable (parse : Bytes → Option Json) : Wire.Val → Prop
  | .raw _ => True
  | .str s => Wire.validUtf8 s = true
  | .json t => (parse t).isSome

/-- C90: what a client writes is shown as that value. -/
theorem C90_shown (parse : Bytes → Option Json) (hl : ∀ s, Wire.validUtf8 s = true → lossy s = s) (v : Wire.Val) (hv : Writable parse v) :
    expected parse v = some (display lossy parse (Wire.tsAny v)) := by
  cases v with
  | raw b => rfl
  | str s =>
    have : display lossy parse (Wire.tsAny (.str s)) = .str (lossy s) := rfl
    rw [this, hl s hv]; rfl
  | json t =>
    obtain ⟨j, hj⟩ := Option.isSome_iff_exists.1 hv
    have : display lossy parse (Wire.tsAny (.json t)) = (parse t).getD (.str (lossy t)) := rfl
    rw [this, hj]
    exact hj

/-- C90: two buffers, or two texts, that are shown alike are the same. -/
theorem C90_distinct_partial (parse : Bytes → Option Json) (hl : ∀ s, Wire.validUtf8 s = true → lossy s = s) :
    (∀ a b, display lossy parse (Wire.tsAny (.raw a)) = display lossy parse (Wire.tsAny (.raw b)) → a = b) ∧
    (∀ a b, Wire.validUtf8 a = true → Wire.validUtf8 b = true →
      display lossy parse (Wire.tsAny (.str a)) = display lossy parse (Wire.tsAny (.str b)) → a = b) := by
  refine ⟨fun a b h => ?_, fun a b ha hb h => ?_⟩
  · have h1 : Json.str ([48, 120] ++ Wire.hexOf a) = .str ([48, 120] ++ Wire.hexOf b) := h
    have h2 : Wire.hexOf a = Wire.hexOf b := by simpa using h1
    have h3 := Wire.tsUuid_hexOf a
    rw [h2, Wire.tsUuid_hexOf b] at h3
    exact (Option.some.inj h3).symm
  · have h1 : Json.str (lossy a) = .str (lossy b) := h
    rw [hl a ha, hl b hb] at h1
    exact Json.str.inj h1

/-- C90 does not hold in full: a buffer and the text of its digits are shown alike. -/
theorem C90_violated (parse : Bytes → Option Json) (hl : ∀ s, Wire.validUtf8 s = true → lossy s = s) :
    display lossy parse (Wire.tsAny (.raw [97])) = display lossy parse (Wire.tsAny (.str [48, 120, 54, 49])) := by
  have h1 : display lossy parse (Wire.tsAny (.str [48, 120, 54, 49])) = .str (lossy [48, 120, 54, 49]) := rfl
  rw [h1, hl _ (by decide)]
  have h2 : display lossy parse (Wire.tsAny (.raw [97])) = .str ([48, 120] ++ Wire.hexOf [97]) := rfl
  rw [h2]
  decide

/-- C90 does not hold for payloads with another first byte: the client library takes the rest as a buffer, the dashboard shows the
whole as text (here the byte 65 followed by 66 is shown as the text "AB", and a client gets the buffer `[66]`). -/
theorem C90_violated_foreign (hl : ∀ s, Wire.validUtf8 s = true → lossy s = s) :
    Wire.tsDecodeAny [65, 66] = some (.raw [66]) ∧ display lossy (fun _ => none) [65, 66] = .str [65, 66] := by
  refine ⟨by decide, ?_⟩
  have : display lossy (fun _ => none) [65, 66] = .str (lossy [65, 66]) := rfl
  rw [this, hl _ (by decide)]

example : display id (fun _ => none) (Wire.tsAny (.raw [171, 5])) = .str [48, 120, 97, 98, 48, 53] := by decide
example : Writable (fun _ => none) (.str [195, 169]) := by show Wire.validUtf8 _ = true; decide

/-! ## C91: streams -/

section
variable {crc : Bytes → Nat} {base : Nat} {H : List Stream.Msg} {now : Nat} {t : Stream.Topic} (hst : Stream.StartsWith crc base H now t)
include hst

/-- C91: the number the dashboard shows for a topic is that of the last message published. -/
theorem C91_last (es : List Stream.Ev) : lastSeq (t.run crc es) = base + (H ++ Stream.published t.log.next es).length - 1 := by
  obtain ⟨h1, h2, _, _⟩ := hst.inv
  have := (Stream.MemOk.run ⟨h2.mem, h2.next⟩ h1 crc es).next
  unfold lastSeq
  rw [this]

/-- C91: a page for a given number `n`, answered from memory, shows the messages that follow `n` (or the start of the
log), up to the limit, newest first.  `es2` is what happens between the two looks the request takes at the topic. -/
theorem C91_page_partial (es1 es2 : List Stream.Ev) (q : StreamQuery) (n id : Nat) (hq : q.from = some n) (ms : List Stream.Msg)
    (h : ((t.run crc (es1 ++ es2)).step crc (.read (q.start (lastSeq (t.run crc es1))) q.size)).2 = .readReply id ms) :
    StreamQuery.shown ms =
      (((H ++ Stream.published t.log.next (es1 ++ es2)).drop (max n (t.run crc (es1 ++ es2)).log.head - base)).take
        (min (q.limit.getD 50) 500)).reverse := by
  have h1 : q.start (lastSeq (t.run crc es1)) = n := by simp [StreamQuery.start, hq]
  rw [h1] at h
  rw [StreamQuery.shown, Stream.C39_read_now hst (es1 ++ es2) n q.size id ms h]
  rfl

/-- C91: the first page, answered from memory and with nothing happening in between, shows the newest messages of the
log (those that retention has left), newest first, up to the limit. -/
theorem C91_newest_partial (es : List Stream.Ev) (q : StreamQuery) (id : Nat) (hq : q.from = none) (ms : List Stream.Msg)
    (h : ((t.run crc es).step crc (.read (q.start (lastSeq (t.run crc es))) q.size)).2 = .readReply id ms) :
    StreamQuery.shown ms =
      ((H ++ Stream.published t.log.next es).drop ((t.run crc es).log.head - base)).reverse.take (min (q.limit.getD 50) 500) := by
  have hsz : min (q.limit.getD 50) 500 = q.size := rfl
  rw [StreamQuery.shown, Stream.C39_read_now hst es _ _ id ms h, hsz]
  have hbase : 1 ≤ base := hst.inv.2.2.2
  generalize hL : H ++ Stream.published t.log.next es = L
  have hlast := C91_last hst es
  rw [hL] at hlast
  have hstart : q.start (lastSeq (t.run crc es)) = max (base + L.length - 1 - (q.size - 1)) 1 := by
    simp [StreamQuery.start, hq, hlast]
  rw [hstart]
  generalize (t.run crc es).log.head = hd
  generalize q.size = size
  cases Nat.eq_zero_or_pos size with
  | inl h0 => simp [h0]
  | inr hpos =>
    rw [List.take_of_length_le (by simp only [List.length_drop]; omega), List.take_reverse, List.drop_drop]
    congr 2
    rw [List.length_drop]
    omega

end

/-- C91: the dashboard shows a group exactly if the topic knows it (somebody has joined it, or it was in the files); the progress it
shows is true and as high as it can be, and the count it shows is the number of messages that consumers of the group hold. -/
theorem C91_groups {crc : Bytes → Nat} {t : Stream.Topic} (hst : Stream.Started crc t) (name : Str) (es : List Stream.Ev)
    (hnd : (Stream.joinIds name es).Nodup) :
    ((Stream.viewAfter crc t name es).known = true ↔ ∃ i ∈ groups (t.run crc es), i.id = name) ∧
    ∀ i ∈ groups (t.run crc es), i.id = name →
      (∀ s ≤ i.ackFloor, (Stream.viewAfter crc t name es).fate s ∈ [.acked, .gaveUp, .removed, .skipped]) ∧
      (Stream.viewAfter crc t name es).fate (i.ackFloor + 1) ∉ [.acked, .gaveUp, .removed, .skipped] ∧
      ∃ L : List Nat, L.Nodup ∧ L.length = i.pending ∧
        ∀ s, s ∈ L ↔ ∃ c at_ k, (Stream.viewAfter crc t name es).fate s = .held c at_ k := by
  obtain ⟨J, hr, _, _, _⟩ := hst.reach name es hnd
  constructor
  · rw [hr.known, mhas_iff]
    constructor
    · intro h
      obtain ⟨g, hg⟩ := Option.isSome_iff_exists.1 (mget_isSome.2 h)
      exact ⟨_, List.mem_filterMap.2 ⟨name, h, by rw [hg]; rfl⟩, rfl⟩
    · rintro ⟨i, hi, rfl⟩
      obtain ⟨n, hn, h⟩ := List.mem_filterMap.1 hi
      cases hg : mget (t.run crc es).groups n with
      | none => rw [hg] at h; cases h
      | some g => rw [hg] at h; cases h; exact hn
  · intro i hi hname
    obtain ⟨n, hn, h⟩ := List.mem_filterMap.1 hi
    cases hg : mget (t.run crc es).groups n with
    | none => rw [hg] at h; cases h
    | some g =>
      rw [hg] at h
      cases h
      subst hname
      have hgr := hr.grp g hg
      have hc := hgr.inv.core
      refine ⟨fun s hs => ?_, ?_, mkeys g.pending, hc.wf, List.length_map _, fun s => ?_⟩
      · have := (Stream.settled_iff hgr.inv s).2 ⟨Nat.lt_of_le_of_lt hs hc.floorLt, hc.floorOk s hs⟩
        cases hf : (Stream.viewAfter crc t n es).fate s <;> rw [hf] at this <;> first | (cases this; done) | simp
      · intro hse
        have hset : ((Stream.viewAfter crc t n es).fate (g.floor + 1)).settled = true := by
          cases hf : (Stream.viewAfter crc t n es).fate (g.floor + 1) <;> rw [hf] at hse <;> first | rfl | (simp at hse)
        obtain ⟨a, b, d⟩ := (Stream.settled_iff hgr.inv _).1 hset
        rcases hgr.inv.tight with h | h | h
        · omega
        · rw [b] at h; cases h
        · exact absurd h d
      · constructor
        · intro hs
          obtain ⟨p, hp⟩ := Option.isSome_iff_exists.1 (mget_isSome.2 hs)
          exact ⟨p.consumer, p.at_, p.count, (hc.held s _ _ _).2 hp⟩
        · rintro ⟨c, at_, k, h⟩
          exact List.mem_map.2 ⟨_, mget_some_mem ((hc.held s c at_ k).1 h), rfl⟩

/-- C91 does not hold in full: the first page can leave out the newest message.  Message 1 has been flushed and has left the memory,
message 2 is in memory only; the page begins with message 1, is read from the files, and ends there. -/
theorem C91_violated :
    let t := Stream.Ex.tM.run Stream.Ex.sum [.publish 5 [1], .send 0, .storage 10, .flush 11, .publish 6 [2], .send 0, .evictLoad, .evictRun]
    let q : StreamQuery := {}
    lastSeq t = 2 ∧
    (t.step Stream.Ex.sum (.read (q.start (lastSeq t)) q.size)).2 matches .none ∧
    ∃ id, ((t.run Stream.Ex.sum [.read (q.start (lastSeq t)) q.size, .storage 12, .storage 13]).step Stream.Ex.sum (.readDone t.nextOp)).2 =
      .readReply id [⟨1, 5, [1]⟩] := by
  refine ⟨by decide, by decide, _, rfl⟩

/-- Three messages, a page of two. -/
example : (((Stream.Ex.tL.run Stream.Ex.sum [.publish 5 [1], .publish 6 [2], .publish 7 [3]]).step Stream.Ex.sum
      (.read (({ limit := some 2 } : StreamQuery).start 3) (({ limit := some 2 } : StreamQuery).size))).2 matches .readReply _ [⟨2, 6, [2]⟩, ⟨3, 7, [3]⟩]) := by
  decide

example : groups (Stream.Ex.t0.run Stream.Ex.crc Stream.Ex.es1) = [⟨Stream.Ex.g, 0, 2⟩] := by decide

end Verif.Dashboard
