import Verif.Proofs.StreamE2E3

/-!
# C86, C87, C88: stream consumers and topic, end to end

`Verif.Spec.StreamE2E` says what is observed: `calls` and `callsOf k` (the messages the callbacks are called with),
`processed` (the messages for which a callback returned without an error), `delivered` (how often the server delivered a
message to the group since the last seek).  `t` is a topic at the start of a run of the server, `es` any history of the
clients, the network and the server.
-/

namespace Verif.StreamE2E

open Verif.Stream (Msg Topic Cfg Started viewAfter)

variable (crc : Bytes → Nat) (o : Options)

/-! ## C86 -/

theorem newIds_append (a b : List Event) : newIds (a ++ b) = newIds a ++ newIds b := by
  induction a with
  | nil => rfl
  | cons e a ih =>
    cases e with
    | exec => simp [newIds, ih]
    | server x => cases x <;> simp [newIds, ih]
    | _ => simpa [newIds] using ih

/-- C86: the group counts a message as acknowledged only if the callback of some client returned without an error for it
(or somebody acknowledged it by hand). -/
theorem C86_acked (t : Topic) (es : List Event) (s : Nat)
    (h : (viewAfter crc t o.group (serverEvents crc o (Net.new t) es)).fate s = .acked) :
    s ∈ processed crc o (Net.new t) es ∨ AckedByOther o es s := by
  obtain ⟨c, gen, hc⟩ := Stream.acked_event h
  exact acks_processed crc o t hc

/-- C86: the progress of the group that the server reports to a joining consumer covers only messages for which the callback of some
client returned without an error, except those that somebody acknowledged by hand, that were delivered `max_deliveries`
times, that retention removed, or that lie before the point where the group started. -/
theorem C86_progress {t : Topic} (hst : Started crc t) (es : List Event) (conn c c' : Str) (f gen s : Nat)
    (hids : (newIds (es ++ [.server (.join o.group conn c)])).Nodup)
    (h : (((Net.new t).run crc o es).topic.step crc (.join o.group conn c)).2 = .joined f c' gen) (hs : s ≤ f) :
    s ∈ processed crc o (Net.new t) es ∨ AckedByOther o es s ∨
    (viewAfter crc t o.group (serverEvents crc o (Net.new t) es ++ [.join o.group conn c])).fate s ∈ [.gaveUp, .removed, .skipped] := by
  have hnd : (Stream.joinIds o.group (serverEvents crc o (Net.new t) es ++ [.join o.group conn c])).Nodup := by
    have := (joinIds_sub crc o (Net.new t) (es ++ [.server (.join o.group conn c)])).nodup hids
    rwa [serverEvents_snoc] at this
  rw [topic_run] at h
  have := (Stream.C52_true hst o.group _ conn c hnd f gen c' h).1 s hs
  simp only [List.mem_cons, List.not_mem_nil, or_false] at this
  rcases this with h1 | h1 | h1 | h1
  · obtain ⟨c2, gen2, hc⟩ := Stream.acked_event h1
    rcases List.mem_append.1 hc with hc | hc
    · rcases acks_processed crc o t hc with h | h
      · exact .inl h
      · exact .inr (.inl h)
    · simp at hc
  · simp [h1]
  · simp [h1]
  · simp [h1]

theorem fates_skipped {max wait s : Nat} {f : Stream.Fate} {ob : Stream.Obs} (h : f.step max wait s ob = .skipped) :
    f = .skipped ∨ ∃ first, ob = .restarted first ∧ s < first := by
  cases ob with
  | delivered c now s' =>
    simp only [Stream.Fate.step] at h
    split at h
    · cases h
    · exact .inl h
  | acked s' =>
    simp only [Stream.Fate.step] at h
    split at h
    · cases h
    · exact .inl h
  | left who =>
    cases f <;> first
      | exact .inl h
      | (simp only [Stream.Fate.step] at h
         split at h
         · simp only [Stream.Fate.release] at h; split at h <;> cases h
         · cases h)
  | tick now =>
    cases f <;> first
      | exact .inl h
      | (simp only [Stream.Fate.step] at h
         split at h
         · simp only [Stream.Fate.release] at h; split at h <;> cases h
         · cases h)
  | removed head =>
    have : (if s < head then Stream.Fate.removed else f) = .skipped := by cases f <;> exact h
    split at this
    · cases this
    · exact .inl this
  | restarted first =>
    have : (if first ≤ s then Stream.Fate.fresh else .skipped) = .skipped := by cases f <;> exact h
    split at this
    · cases this
    · exact .inr ⟨first, rfl, by omega⟩

theorem fates_removed {max wait s : Nat} {f : Stream.Fate} {ob : Stream.Obs} (h : f.step max wait s ob = .removed) :
    f = .removed ∨ ∃ head, ob = .removed head := by
  cases ob with
  | delivered c now s' =>
    simp only [Stream.Fate.step] at h
    split at h
    · cases h
    · exact .inl h
  | acked s' =>
    simp only [Stream.Fate.step] at h
    split at h
    · cases h
    · exact .inl h
  | left who =>
    cases f <;> first
      | exact .inl h
      | (simp only [Stream.Fate.step] at h
         split at h
         · simp only [Stream.Fate.release] at h; split at h <;> cases h
         · cases h)
  | tick now =>
    cases f <;> first
      | exact .inl h
      | (simp only [Stream.Fate.step] at h
         split at h
         · simp only [Stream.Fate.release] at h; split at h <;> cases h
         · cases h)
  | removed head => exact .inr ⟨head, rfl⟩
  | restarted first =>
    have : (if first ≤ s then Stream.Fate.fresh else .skipped) = .removed := by cases f <;> exact h
    split at this <;> cases this

/-- Nothing of the group has been skipped or removed. -/
structure Clean (v : Stream.View) : Prop where
  head : v.head = 1
  removed : ∀ s, v.fate s ≠ .removed
  skipped : v.known = true → ∀ s, 1 ≤ s → v.fate s ≠ .skipped

theorem Clean.obs {v : Stream.View} (h : Clean v) (max wait : Nat) {ob : Stream.Obs} (h1 : ∀ hd, ob ≠ .removed hd)
    (h2 : ∀ first, ob = .restarted first → first ≤ 1) : Clean (v.obs max wait [ob]) where
  head := h.head
  removed s hs := by
    rcases fates_removed (show (v.fate s).step max wait s ob = .removed from hs) with h3 | ⟨hd, h3⟩
    · exact h.removed s h3
    · exact h1 hd h3
  skipped hk s hs hf := by
    rcases fates_skipped (show (v.fate s).step max wait s ob = .skipped from hf) with h3 | ⟨first, h3, h4⟩
    · exact h.skipped hk s hs h3
    · have := h2 first h3; omega

theorem Clean.answer {v : Stream.View} (h : Clean v) (max wait : Nat) (name : Str) (now : Nat) (out : Stream.Out) :
    Clean (v.answer max wait name now out) := by
  unfold Stream.View.answer
  split
  · next q ms =>
    split
    · have key : ∀ (ms : List Msg) (v : Stream.View), Clean v → Clean (v.obs max wait (Stream.deliveries q.consumer now ms)) := by
        intro ms
        induction ms with
        | nil => exact fun v h => h
        | cons m ms ih =>
          intro v h
          exact ih _ (h.obs max wait (ob := .delivered q.consumer now m.seq) (fun _ hh => by cases hh) (fun _ hh => by cases hh))
      exact key ms v h
    · exact h
  · exact h

theorem Clean.step {v : Stream.View} (h : Clean v) (max wait : Nat) (name : Str) {e : Stream.Ev} (out : Stream.Out) (h1 : ∀ b, e ≠ .seek name b)
    (h2 : e ≠ .retainDone) : Clean (v.step max wait name (e, out)) := by
  cases e with
  | join g conn c =>
    simp only [Stream.View.step]
    split
    · by_cases hk : v.known = true
      · rw [if_pos hk]; exact ⟨h.head, h.removed, fun _ => h.skipped hk⟩
      · rw [if_neg hk]
        refine ⟨h.head, ?_, ?_⟩
        · intro s hs
          rcases fates_removed (show (v.fate s).step max wait s (.restarted v.head) = .removed from hs) with h3 | ⟨hd, h3⟩
          · exact h.removed s h3
          · cases h3
        · intro _ s hs hf
          have : (v.fate s).step max wait s (.restarted v.head) = .skipped := hf
          rw [h.head] at this
          have : (if 1 ≤ s then Stream.Fate.fresh else .skipped) = .skipped := by cases hh : v.fate s <;> rw [hh] at this <;> exact this
          rw [if_pos hs] at this
          cases this
    · exact h
  | leave g c gen order =>
    cases out with
    | ok =>
      simp only [Stream.View.step]
      split
      · have := h.obs max wait (ob := .left (fun c' => decide (c' = c))) (fun _ hh => by cases hh) (fun _ hh => by cases hh)
        exact ⟨this.head, this.removed, this.skipped⟩
      · exact h
    | _ => exact h
  | disconnect conn order =>
    have := h.obs max wait (ob := .left (fun c => decide ((c, conn) ∈ v.members))) (fun _ hh => by cases hh) (fun _ hh => by cases hh)
    exact ⟨this.head, this.removed, this.skipped⟩
  | attempt id now => exact h.answer max wait name now out
  | finish id now => exact h.answer max wait name now out
  | ack g c gen s =>
    cases out with
    | ok =>
      simp only [Stream.View.step]
      split
      · exact h.obs max wait (ob := .acked s) (fun _ hh => by cases hh) (fun _ hh => by cases hh)
      · exact h
    | _ => exact h
  | seek g b =>
    simp only [Stream.View.step]
    split
    · next hg => subst hg; exact absurd rfl (h1 b)
    · exact h
  | tick now order => exact h.obs max wait (ob := .tick now) (fun _ hh => by cases hh) (fun _ hh => by cases hh)
  | retainDone => exact absurd rfl h2
  | publish ts p => exact ⟨h.head, h.removed, h.skipped⟩
  | _ => exact h

theorem Clean.after (cfg : Cfg) (name : Str) (es : List Stream.Ev) (h1 : Stream.NoSeek name es) (h2 : .retainDone ∉ es) :
    Clean (viewAfter crc (Topic.fresh crc cfg) name es) := by
  induction es using Verif.Sdk.snoc_ind with
  | h0 =>
    refine ⟨rfl, ?_, ?_⟩
    · intro s hs; cases hs
    · intro hk; cases hk
  | h1 es e ih =>
    rw [Stream.viewAfter_snoc]
    exact (ih (fun b hb => h1 b (List.mem_append_left _ hb)) (fun hb => h2 (List.mem_append_left _ hb))).step _ _ _ _
      (fun b hb => h1 b (by simp [hb])) (fun hb => h2 (by simp [hb]))

/-- C86, for a new topic whose messages are not removed by retention and a group that is not sought: whenever the
server reports the progress `f` to a joining consumer, each of the messages 1, …, `f` was processed without an error by the callback of some
client, or acknowledged by hand, or delivered as often as `max_deliveries` allows. -/
theorem C86_new_topic {cfg : Cfg} (hst : Started crc (Topic.fresh crc cfg)) (es : List Event) (conn c c' : Str) (f gen s : Nat)
    (hids : (newIds (es ++ [.server (.join o.group conn c)])).Nodup) (hseek : NoSeek o es) (hret : .server .retainDone ∉ es)
    (h : (((Net.new (Topic.fresh crc cfg)).run crc o es).topic.step crc (.join o.group conn c)).2 = .joined f c' gen) (h1 : 1 ≤ s) (hs : s ≤ f) :
    s ∈ processed crc o (Net.new (Topic.fresh crc cfg)) es ∨ AckedByOther o es s ∨ delivered crc o (Topic.fresh crc cfg) es s = cfg.maxDeliveries := by
  have hclean := Clean.after crc cfg o.group (serverEvents crc o (Net.new (Topic.fresh crc cfg)) es ++ [.join o.group conn c]) (by
      intro b hb
      rcases List.mem_append.1 hb with hb | hb
      · exact hseek.server crc o _ b hb
      · simp at hb) (by
      intro hb
      rcases List.mem_append.1 hb with hb | hb
      · rcases mem_server crc o hb with h | ⟨_, _, _, _, _, _, q, _, _, h⟩
        · exact hret h
        · cases q <;> cases h
      · simp at hb)
  have hnd : (Stream.joinIds o.group (serverEvents crc o (Net.new (Topic.fresh crc cfg)) es ++ [.join o.group conn c])).Nodup := by
    have := (joinIds_sub crc o (Net.new (Topic.fresh crc cfg)) (es ++ [.server (.join o.group conn c)])).nodup hids
    rwa [serverEvents_snoc] at this
  rcases C86_progress crc o hst es conn c c' f gen s hids h hs with hp | hp | hp
  · exact .inl hp
  · exact .inr (.inl hp)
  · simp only [List.mem_cons, List.not_mem_nil, or_false] at hp
    rcases hp with hp | hp | hp
    · right; right
      have hc := (Stream.counted_unknown hst (name := o.group) s _ hnd).1
      rw [hp] at hc
      simp only [Stream.Counted] at hc
      unfold delivered
      rw [trace_snoc] at hc
      have : Decidable (∃ b, (Stream.Ev.join o.group conn c) = .seek o.group b) := Classical.propDecidable _
      rw [Stream.sinceSeek_snoc, if_neg (by rintro ⟨b, hb⟩; cases hb)] at hc
      have hg : ((((Topic.fresh crc cfg).run crc (serverEvents crc o (Net.new (Topic.fresh crc cfg)) es)).step crc (.join o.group conn c)).2.gives o.group) = [] := rfl
      rw [hg] at hc
      exact hc
    · exact absurd hp (hclean.removed s)
    · refine absurd hp (hclean.skipped ?_ s h1)
      rw [Stream.viewAfter_snoc]
      simp only [Stream.View.step, if_true]

def exO : Options := { group := Stream.Ex.g, concurrency := fun _ => 2, batchSize := fun _ => 2, poll := fun _ => false }
abbrev exN : Net := Net.new Stream.Ex.t0

/-- Three messages and two clients: client 0 gets messages 1 and 2; its callback returns for 1 and throws for 2; it stops.  Client 1 gets
messages 2 and 3 and processes them. -/
def exE : List Event :=
  [.client 0 (.go true), .exec 0 Stream.Ex.k1 Stream.Ex.c1 [], .receive 0 true,
    .server (.publish 5 [1]), .server (.send 0), .server (.publish 5 [2]), .server (.send 0), .server (.publish 5 [3]), .server (.send 0),
    .exec 0 Stream.Ex.k1 [50] [], .server (.attempt 0 100), .receive 0 true,
    .client 0 .take, .client 0 .take, .client 0 (.returned 0 true true), .client 0 (.returned 1 false true), .client 0 .stop,
    .exec 0 Stream.Ex.k1 [51] [], .exec 0 Stream.Ex.k1 [52] [],
    .client 1 (.go true), .exec 0 Stream.Ex.k2 Stream.Ex.c2 [], .receive 0 true, .exec 0 Stream.Ex.k2 [53] [], .server (.attempt 1 103), .receive 0 true,
    .client 1 .take, .client 1 .take, .client 1 (.returned 2 true true), .client 1 (.returned 3 true true),
    .exec 0 Stream.Ex.k2 [54] [], .exec 0 Stream.Ex.k2 [55] []]

example : (newIds (exE ++ [.server (.join exO.group [9] [99])])).Nodup ∧ NoSeek exO exE ∧ Event.server .retainDone ∉ exE := by
  refine ⟨by decide, fun b h => by simp [exE] at h, fun h => by simp [exE] at h⟩
example : processed Stream.Ex.crc exO exN exE = [1, 2, 3] := by decide
example : ∃ c gen, ((exN.run Stream.Ex.crc exO exE).topic.step Stream.Ex.crc (.join exO.group [9] [99])).2 = .joined 3 c gen := ⟨_, _, rfl⟩

/-! ## C87 -/

/-- C87, first part: a callback is called only with messages that were published (or were in the files `H` before the server
was started), with their number, time and payload. -/
theorem C87_faithful_partial {base now : Nat} {H : List Msg} {t : Topic} (hst : Stream.StartsWith crc base H now t) (es : List Event)
    (hf : ∀ m ∈ published t.log.next es, Stream.Fits m) {m : Msg} (hm : m ∈ calls crc o (Net.new t) es) : m ∈ H ++ published t.log.next es := by
  rw [calls_nos] at hm
  obtain ⟨n, _, hn⟩ := List.mem_filterMap.1 hm
  exact deliveries_published crc o hst es hf m (List.mem_of_getElem? hn)

/-- C87, second part: over all clients of the group together, the callbacks are called for a message at most as often as the
server delivered it, and at most `max_deliveries` times, as long as the group is not sought. -/
theorem C87_bounded_partial {t : Topic} (hst : Started crc t) (es : List Event) (hids : (newIds es).Nodup) (hn : NoSeek o es) (s : Nat) :
    ((calls crc o (Net.new t) es).filter (fun m => m.seq = s)).length ≤ delivered crc o t es s ∧ delivered crc o t es s ≤ t.cfg.maxDeliveries := by
  have h1 := calls_le crc o t es s
  have h2 := deliveries_le crc o t es hn s
  have h3 := Stream.C47_delivery_limit hst o.group (serverEvents crc o (Net.new t) es) ((joinIds_sub crc o (Net.new t) es).nodup hids) s
  have h5 : ((calls crc o (Net.new t) es).filter (fun m => m.seq = s)).length = ((calls crc o (Net.new t) es).map (·.seq)).count s := by
    rw [List.count_eq_countP, List.countP_map, List.countP_eq_length_filter]
    congr 1
  exact ⟨by omega, h3⟩

example : (calls Stream.Ex.crc exO exN exE).map (fun m => (m.seq, m.payload)) = [(1, [1]), (2, [2]), (2, [2]), (3, [3])] := by decide
example : published Stream.Ex.t0.log.next exE = [⟨1, 5, [1]⟩, ⟨2, 5, [2]⟩, ⟨3, 5, [3]⟩] := by decide
example : delivered Stream.Ex.crc exO Stream.Ex.t0 exE 2 = 2 := by decide

/-- One delivery per message. -/
def exCfg1 : Cfg := { Stream.Ex.cfg with maxDeliveries := 1 }

/-- C87 is violated: a message is given up although no callback was ever called with it.  The client fetches it and is stopped
before a worker takes it; leaving the group uses up the only delivery.  The progress of the group passes the message, and the
next consumer does not get it. -/
theorem C87_violated : ∃ (o : Options) (cfg : Cfg) (es : List Event), (newIds (es ++ [.server (.join o.group [9] [99])])).Nodup ∧ NoSeek o es ∧
    Started Stream.Ex.crc (Topic.fresh Stream.Ex.crc cfg) ∧
    (viewAfter Stream.Ex.crc (Topic.fresh Stream.Ex.crc cfg) o.group (serverEvents Stream.Ex.crc o (Net.new (Topic.fresh Stream.Ex.crc cfg)) es)).fate 1 = .gaveUp ∧
    calls Stream.Ex.crc o (Net.new (Topic.fresh Stream.Ex.crc cfg)) es = [] ∧
    ∃ c gen, (((Net.new (Topic.fresh Stream.Ex.crc cfg)).run Stream.Ex.crc o es).topic.step Stream.Ex.crc (.join o.group [9] [99])).2 = .joined 1 c gen := by
  refine ⟨exO, exCfg1,
    [.client 0 (.go true), .exec 0 Stream.Ex.k1 Stream.Ex.c1 [], .receive 0 true, .server (.publish 5 [1]), .server (.send 0),
      .exec 0 Stream.Ex.k1 [50] [], .server (.attempt 0 100), .receive 0 true, .client 0 .stop, .client 0 .take, .exec 0 Stream.Ex.k1 [51] []],
    by decide, fun b h => by simp at h, ?_, by decide, by decide, _, _, rfl⟩
  refine ⟨by decide, id, { segs := [], writers := [], groups := none }, ⟨?_, ?_, ?_⟩, rfl⟩
  · intro i m m0 h; simp [Stream.recover] at h
  · intro m h; simp [Stream.recover] at h
  · intro s h; cases h

/-! ## C88 -/

/-- C88: each client's callback is called in the order of the log, except for messages that are delivered again: if the callback of a
client is called with `a` and later with `b`, then `a` comes before `b` in the topic or `b` was delivered at least twice. -/
theorem C88_order {t : Topic} (hst : Started crc t) (k : Nat) (es : List Event) (hids : (newIds es).Nodup) (hn : NoSeek o es) :
    (callsOf crc o k (Net.new t) es).Pairwise (fun a b => a.seq < b.seq ∨ 2 ≤ delivered crc o t es b.seq) :=
  callsOf_order crc o hst k es hn hids

/-- C88: if messages are delivered only once (`max_deliveries = 1`), each client's callback is called strictly in the order of
the log. -/
theorem C88_strict {t : Topic} (hst : Started crc t) (hmax : t.cfg.maxDeliveries = 1) (k : Nat) (es : List Event) (hids : (newIds es).Nodup) (hn : NoSeek o es) :
    ((callsOf crc o k (Net.new t) es).map (·.seq)).Pairwise (· < ·) := by
  rw [List.pairwise_map]
  refine (C88_order crc o hst k es hids hn).imp ?_
  intro a b h
  rcases h with h | h
  · exact h
  · have := (C87_bounded_partial crc o hst es hids hn b.seq).2
    omega

example : (callsOf Stream.Ex.crc exO 0 exN exE).map (·.seq) = [1, 2] ∧ (callsOf Stream.Ex.crc exO 1 exN exE).map (·.seq) = [2, 3] := by decide

end Verif.StreamE2E
