import Verif.Proofs.StreamE2E2

/-! # What the server hands out, and what the callbacks are called with -/

namespace Verif.StreamE2E

open Verif.Stream (Msg Topic GErr)
open Verif.Sdk.StreamLoop (Loop Ev Member inProgress called)

variable (crc : Bytes → Nat) (o : Options)

/-- The fetches the server works on for the clients are fetches of the group. -/
def Work (s : Net) : Prop := ∀ id w, mget s.working id = some w →
  id < s.topic.nextOp ∧ ∀ op, mget s.topic.fetches id = some op → op.group = o.group

theorem Work.topic {s : Net} (h : Work o s) (e : Stream.Ev) {id : Nat} {w : Nat × Nat} (hw : mget s.working id = some w) :
    id < (s.topic.step crc e).1.nextOp ∧ ∀ op, mget (s.topic.step crc e).1.fetches id = some op → op.group = o.group := by
  have hs := Stream.step_waits crc s.topic e
  obtain ⟨h1, h2⟩ := h id w hw
  refine ⟨Nat.lt_of_lt_of_le h1 hs.next, ?_⟩
  intro op hop
  rcases hs.fetches id op hop with ⟨h3, _⟩ | ⟨op0, h3, h4, _⟩
  · omega
  · have := h2 op0 h3
    simp only [Stream.FetchOp.query, Stream.Query.mk.injEq] at h4
    rw [h4.1]; exact this

theorem Work.step {s : Net} (h : Work o s) (e : Event) : Work o (s.step crc o e) := by
  cases e with
  | client k e =>
    by_cases hp : plain e
    · rw [step_client crc o s k hp]; exact h
    · rw [step_not_client crc o s k hp]; exact h
  | exec i conn c order =>
    simp only [Net.step]
    cases hq : s.requests[i]? with
    | none => exact h
    | some q =>
      show Work o (execStep crc o { s with requests := s.requests.eraseIdx i } q conn c order)
      have hx := execStep_cases crc o { s with requests := s.requests.eraseIdx i } q conn c order
      generalize execStep crc o { s with requests := s.requests.eraseIdx i } q conn c order = s' at hx
      cases hx with
      | join k no => intro id w hw; exact h.topic crc o _ hw
      | refused k no => intro id w hw; exact h.topic crc o _ hw
      | start k no c gen hn =>
        intro id w hw
        simp only [mget_mset] at hw
        split at hw
        · next hid =>
          subst hid
          simp only [Topic.step] at hn ⊢
          split at hn
          · cases hn
          · next g hg =>
            simp only [hg]
            refine ⟨Nat.lt_succ_self _, ?_⟩
            intro op hop
            simp only [mget_mset, if_true, Option.some.injEq] at hop
            rw [← hop]
        · exact h.topic crc o _ hw
      | ack => intro id w hw; exact h.topic crc o _ hw
      | leave => intro id w hw; exact h.topic crc o _ hw
  | loseRequest i => exact h
  | loseAnswer i => exact h
  | receive i ok =>
    simp only [Net.step]
    cases ha : s.answers[i]? with
    | none => exact h
    | some a =>
      simp only [receiveStep]
      split
      · exact h
      · exact h
  | server x =>
    simp only [Net.step]
    have hx := serverStep_cases crc s x
    generalize serverStep crc s x = s' at hx
    cases hx with
    | silent => intro id w hw; exact h.topic crc o _ hw
    | answer i k no q x he hx hw =>
      intro id w hw'
      rw [(answerFetch_topic _ k no x).2.2.2.2.1] at hw'
      rw [(answerFetch_topic _ k no x).1]
      simp only [mget_mdel] at hw'
      split at hw'
      · cases hw'
      · exact h.topic crc o _ hw'

theorem Work.run (t : Topic) (es : List Event) : Work o ((Net.new t).run crc o es) := by
  induction es using Verif.Sdk.snoc_ind with
  | h0 => intro id w h; cases h
  | h1 es e ih => rw [run_snoc]; exact ih.step crc o e

/-- The request a step answers. -/
theorem fetched_query {t : Topic} {e : Stream.Ev} {id : Nat} {q : Stream.Query} {x : Except GErr (List Msg)}
    (he : fetchOf e = some id) (h : (t.step crc e).2 = .fetched q x) : ∃ op, mget t.fetches id = some op ∧ q = op.query := by
  cases e with
  | attempt i now =>
    simp only [fetchOf, Option.some.injEq] at he
    subst he
    simp only [Topic.step, Topic.attempt] at h
    split at h
    · cases h
    · next op hop =>
      refine ⟨op, hop, ?_⟩
      split at h
      · cases h
      · split at h
        · simp only [Topic.endFetch, Stream.Out.fetched.injEq] at h; exact h.1.symm
        · simp only [Topic.endFetch, Stream.Out.fetched.injEq] at h; exact h.1.symm
        · cases h
        · split at h
          · cases h
          · simp only [Topic.endFetch, Stream.Out.fetched.injEq] at h; exact h.1.symm
  | giveUp i =>
    simp only [fetchOf, Option.some.injEq] at he
    subst he
    simp only [Topic.step] at h
    split at h
    · cases h
    · next op hop =>
      refine ⟨op, hop, ?_⟩
      split at h
      · simp only [Topic.endFetch, Stream.Out.fetched.injEq] at h; exact h.1.symm
      · cases h
  | finish i now =>
    simp only [fetchOf, Option.some.injEq] at he
    subst he
    simp only [Topic.step] at h
    split at h
    · cases h
    · next op hop =>
      refine ⟨op, hop, ?_⟩
      split at h
      · simp only [Topic.endFetch, Stream.Out.fetched.injEq] at h; exact h.1.symm
      · cases h
  | _ => cases he

/-- What a step hands out to the clients is what the topic delivers to the group. -/
theorem deliveries_step {s : Net} (hw : Work o s) (e : Event) : (s.step crc o e).deliveries = s.deliveries ∨
    ∃ x q ms, e = .server x ∧ (s.topic.step crc x).2 = .fetched q (.ok ms) ∧ q.group = o.group ∧ (s.step crc o e).deliveries = s.deliveries ++ ms := by
  cases e with
  | client k e =>
    left
    by_cases hp : plain e
    · rw [step_client crc o s k hp]; rfl
    · rw [step_not_client crc o s k hp]
  | exec i conn c order =>
    left
    simp only [Net.step]
    cases hq : s.requests[i]? with
    | none => rfl
    | some q => exact ((execStep_cases crc o { s with requests := s.requests.eraseIdx i } q conn c order).frame).2.2.2.2
  | loseRequest i => exact .inl rfl
  | loseAnswer i => exact .inl rfl
  | receive i ok =>
    left
    simp only [Net.step]
    cases ha : s.answers[i]? with
    | none => rfl
    | some a => exact (receiveStep_fields o _ a ok).2.2.1
  | server x =>
    simp only [Net.step]
    have hx := serverStep_cases crc s x
    generalize serverStep crc s x = s' at hx
    cases hx with
    | silent => exact .inl rfl
    | answer i k no q y he hx hww =>
      cases y with
      | error e => exact .inl rfl
      | ok ms =>
        right
        obtain ⟨op, hop, hq⟩ := fetched_query crc he hx
        exact ⟨x, q, ms, rfl, hx, by rw [hq]; exact (hw i _ hww).2 op hop, rfl⟩

theorem NoSeek.server {es : List Event} (h : NoSeek o es) (s : Net) : Stream.NoSeek o.group (serverEvents crc o s es) := by
  intro b hb
  rcases mem_server crc o hb with h1 | ⟨_, _, _, _, _, _, q, _, _, h1⟩
  · exact h b h1
  · cases q <;> cases h1

theorem NoSeek.left {a b : List Event} (h : NoSeek o (a ++ b)) : NoSeek o a := fun c hc => h c (List.mem_append_left _ hc)

theorem trace_snoc (t : Topic) (es : List Stream.Ev) (e : Stream.Ev) :
    t.trace crc (es ++ [e]) = t.trace crc es ++ [(e, ((t.run crc es).step crc e).2)] := by
  rw [Stream.trace_append]; rfl

/-- More events, more deliveries. -/
theorem sinceSeek_mono (t : Topic) (name : Str) (n : Nat) (a b : List Stream.Ev) (h : Stream.NoSeek name b) :
    Stream.sinceSeek name n (t.trace crc a) ≤ Stream.sinceSeek name n (t.trace crc (a ++ b)) := by
  induction b using Verif.Sdk.snoc_ind with
  | h0 => rw [List.append_nil]; exact Nat.le_refl _
  | h1 b x ih =>
    have ih := ih (fun c hc => h c (List.mem_append_left _ hc))
    have : Decidable (∃ b, x = .seek name b) := Classical.propDecidable _
    rw [← List.append_assoc, trace_snoc, Stream.sinceSeek_snoc, if_neg (by
      rintro ⟨c, rfl⟩
      exact h c (by simp))]
    omega

theorem delivered_mono (t : Topic) {a b : List Event} (h : NoSeek o (a ++ b)) (n : Nat) : delivered crc o t a n ≤ delivered crc o t (a ++ b) n := by
  unfold delivered
  rw [serverEvents_append]
  refine sinceSeek_mono crc t o.group n _ _ ?_
  have := h.server crc o (Net.new t)
  rw [serverEvents_append] at this
  exact fun c hc => this c (List.mem_append_right _ hc)

/-- A step that hands out messages. -/
theorem delivered_server (t : Topic) {es : List Event} {x : Stream.Ev} {q : Stream.Query} {ms : List Msg} (h : NoSeek o (es ++ [.server x]))
    (hx : (((Net.new t).run crc o es).topic.step crc x).2 = .fetched q (.ok ms)) (hq : q.group = o.group) (n : Nat) :
    delivered crc o t (es ++ [.server x]) n = delivered crc o t es n + (ms.map (·.seq)).count n := by
  unfold delivered
  have : Decidable (∃ b, x = .seek o.group b) := Classical.propDecidable _
  have hs : serverEvents crc o (Net.new t) (es ++ [.server x]) = serverEvents crc o (Net.new t) es ++ [x] := by
    rw [serverEvents_snoc]; rfl
  rw [topic_run] at hx
  rw [hs, trace_snoc, Stream.sinceSeek_snoc, if_neg (by
      rintro ⟨c, rfl⟩
      exact h c (by simp))]
  have hx' : ((t.run crc (serverEvents crc o (Net.new t) es)).step crc x).2 = .fetched q (.ok ms) := hx
  rw [hx']
  simp only [Stream.Out.gives, if_pos hq]

theorem deliveries_le (t : Topic) (es : List Event) (hn : NoSeek o es) (n : Nat) :
    (((Net.new t).run crc o es).deliveries.map (·.seq)).count n ≤ delivered crc o t es n := by
  induction es using Verif.Sdk.snoc_ind with
  | h0 => exact Nat.zero_le _
  | h1 es e ih =>
    have ih := ih (hn.left o)
    rw [run_snoc]
    rcases deliveries_step crc o (Work.run crc o t es) e with h | ⟨x, q, ms, rfl, hx, hq, h⟩
    · rw [h]; exact Nat.le_trans ih (delivered_mono crc o t hn n)
    · rw [h, delivered_server crc o t hn hx hq, List.map_append, List.count_append]; omega

/-- Messages are handed out in order, except those that have been handed out before. -/
theorem deliveries_order {t : Topic} (hst : Stream.Started crc t) (es : List Event) (hn : NoSeek o es) (hids : (newIds es).Nodup) :
    ((Net.new t).run crc o es).deliveries.Pairwise (fun a b => a.seq < b.seq ∨ 2 ≤ delivered crc o t es b.seq) := by
  induction es using Verif.Sdk.snoc_ind with
  | h0 => exact List.Pairwise.nil
  | h1 es e ih =>
    have hids' : (newIds es).Nodup := by
      have hsub : (newIds es).Sublist (newIds (es ++ [e])) := by
        clear hids ih hn
        induction es with
        | nil => exact List.nil_sublist _
        | cons y es ih2 =>
          cases y with
          | exec => exact ih2.cons_cons _
          | server y => cases y <;> first | exact ih2.cons_cons _ | exact ih2
          | _ => exact ih2
      exact hsub.nodup hids
    have ih := ih (hn.left o) hids'
    have ih : ((Net.new t).run crc o es).deliveries.Pairwise (fun a b => a.seq < b.seq ∨ 2 ≤ delivered crc o t (es ++ [e]) b.seq) :=
      ih.imp (fun {a b} h => h.imp id (fun h => Nat.le_trans h (delivered_mono crc o t hn b.seq)))
    rw [run_snoc]
    rcases deliveries_step crc o (Work.run crc o t es) e with h | ⟨x, q, ms, rfl, hx, hq, h⟩
    · rw [h]; exact ih
    · rw [h]
      have hnd : (Stream.joinIds o.group (serverEvents crc o (Net.new t) es)).Nodup := (joinIds_sub crc o (Net.new t) es).nodup hids'
      have htr : ((t.run crc (serverEvents crc o (Net.new t) es)).step crc x).2 = .fetched q (.ok ms) := by
        have := hx; rw [topic_run] at this; exact this
      have hgiven : Stream.given crc t o.group (serverEvents crc o (Net.new t) es) x = ms.map (·.seq) := by
        unfold Stream.given
        rw [htr]
        simp only [Stream.Out.gives, if_pos hq]
      have hd := delivered_server crc o t hn hx hq
      -- a message that is handed out again has been counted twice
      have again : ∀ b ∈ ms, 0 < delivered crc o t es b.seq → 2 ≤ delivered crc o t (es ++ [.server x]) b.seq := by
        intro b hb h0
        rw [hd]
        have : 0 < (ms.map (·.seq)).count b.seq := List.count_pos_iff.2 (List.mem_map_of_mem hb)
        omega
      refine List.pairwise_append.2 ⟨ih, ?_, ?_⟩
      · have h1 := Stream.C43_answer_in_order hst o.group (serverEvents crc o (Net.new t) es) x hnd
        have hall : ∀ c ∈ ms, c.seq ∈ Stream.given crc t o.group (serverEvents crc o (Net.new t) es) x := by
          intro c hc; rw [hgiven]; exact List.mem_map_of_mem hc
        rw [hgiven] at h1
        clear h hd htr hgiven hx
        induction ms with
        | nil => exact List.Pairwise.nil
        | cons b ms ih3 =>
          refine List.Pairwise.cons ?_ (ih3 ?_ ?_ (fun c hc => hall c (List.mem_cons_of_mem _ hc)))
          · intro c hc
            by_cases h0 : delivered crc o t es c.seq = 0
            · by_cases h00 : delivered crc o t es b.seq = 0
              · left
                simp only [List.map_cons] at h1
                rw [List.filter_cons_of_pos (by simpa [delivered] using h00), List.pairwise_cons] at h1
                exact h1.1 c.seq (List.mem_filter.2 ⟨List.mem_map_of_mem hc, by simpa [delivered] using h0⟩)
              · left
                exact Stream.C43_in_order hst o.group (serverEvents crc o (Net.new t) es) x hnd c.seq b.seq (by
                  show 0 < delivered crc o t es b.seq; omega) (hall c (List.mem_cons_of_mem _ hc)) h0
            · exact .inr (again c (List.mem_cons_of_mem _ hc) (by omega))
          · exact fun y hy => again y (List.mem_cons_of_mem _ hy)
          · simp only [List.map_cons] at h1
            by_cases h00 : Stream.sinceSeek o.group b.seq (t.trace crc (serverEvents crc o (Net.new t) es)) = 0
            · rw [List.filter_cons_of_pos (by simpa using h00), List.pairwise_cons] at h1
              exact h1.2
            · rw [List.filter_cons_of_neg (by simpa using h00)] at h1
              exact h1
      · intro a ha b hb
        by_cases h0 : delivered crc o t es b.seq = 0
        · left
          refine Stream.C43_in_order hst o.group (serverEvents crc o (Net.new t) es) x hnd b.seq a.seq ?_ (by rw [hgiven]; exact List.mem_map_of_mem hb) h0
          have h2 := deliveries_le crc o t es (hn.left o) a.seq
          have h3 : 0 < (((Net.new t).run crc o es).deliveries.map (·.seq)).count a.seq := List.count_pos_iff.2 (List.mem_map_of_mem ha)
          show 0 < delivered crc o t es a.seq
          omega
        · exact .inr (again b hb (by omega))

/-! ## What the callbacks are called with -/

theorem callsBy_nos (s : Net) (k : Nat) (e : Event) : callsBy o s k e = (nosBy o s k e).filterMap (fun m => s.deliveries[m]?) := by
  cases e with
  | client j e => simp only [callsBy, nosBy]; split <;> rfl
  | _ => rfl

theorem calledBy_nos (s : Net) (e : Event) : calledBy o s e = (nosAll o s e).filterMap (fun m => s.deliveries[m]?) := by
  cases e with
  | client j e => exact callsBy_nos o s j (.client j e)
  | _ => rfl

theorem filterMap_grow {L l : List Msg} {C : List Nat} (h : ∀ m ∈ C, m < L.length) :
    C.filterMap (fun m => (L ++ l)[m]?) = C.filterMap (fun m => L[m]?) := by
  induction C with
  | nil => rfl
  | cons m C ih =>
    simp only [List.filterMap_cons, List.getElem?_append_left (h m (by simp)), ih (fun x hx => h x (List.mem_cons_of_mem _ hx))]

/-- The deliveries stay as they are when a callback is called, and only grow otherwise. -/
theorem deliveries_grow (t : Topic) (es : List Event) (e : Event) : ∃ l, (((Net.new t).run crc o es).step crc o e).deliveries = ((Net.new t).run crc o es).deliveries ++ l ∧
    (l ≠ [] → nosAll o ((Net.new t).run crc o es) e = [] ∧ ∀ k, nosBy o ((Net.new t).run crc o es) k e = []) := by
  rcases deliveries_step crc o (Work.run crc o t es) e with h | ⟨x, q, ms, rfl, hx, hq, h⟩
  · exact ⟨[], by rw [h, List.append_nil], fun hh => absurd rfl hh⟩
  · exact ⟨ms, h, fun _ => ⟨rfl, fun _ => rfl⟩⟩

theorem calls_nos (t : Topic) (es : List Event) :
    calls crc o (Net.new t) es = (nos crc o (Net.new t) es).filterMap (fun m => ((Net.new t).run crc o es).deliveries[m]?) := by
  induction es using Verif.Sdk.snoc_ind with
  | h0 => rfl
  | h1 es e ih =>
    rw [calls_snoc, nos_snoc, List.filterMap_append, run_snoc, ih, calledBy_nos]
    obtain ⟨l, hl, hn⟩ := deliveries_grow crc o t es e
    rw [hl, filterMap_grow (NTok.run crc o t es).cn]
    congr 1
    by_cases h : l = []
    · rw [h, List.append_nil]
    · rw [(hn h).1]; rfl

theorem callsOf_nos (t : Topic) (k : Nat) (es : List Event) :
    callsOf crc o k (Net.new t) es = (nosOf crc o k (Net.new t) es).filterMap (fun m => ((Net.new t).run crc o es).deliveries[m]?) := by
  induction es using Verif.Sdk.snoc_ind with
  | h0 => rfl
  | h1 es e ih =>
    rw [callsOf_snoc, nosOf_snoc, List.filterMap_append, run_snoc, ih, callsBy_nos]
    obtain ⟨l, hl, hn⟩ := deliveries_grow crc o t es e
    rw [hl, filterMap_grow (fun m hm => (Ord.run crc o t k es).below m (List.mem_append_left _ hm))]
    congr 1
    by_cases h : l = []
    · rw [h, List.append_nil]
    · rw [(hn h).2 k]; rfl

/-- Picking different positions of a list finds a value at most as often as it occurs. -/
theorem pick_count (L : List Nat) (n : Nat) (C : List Nat) (hC : C.Nodup) : (C.filterMap (fun m => L[m]?)).count n ≤ L.count n := by
  induction L generalizing C with
  | nil =>
    have : C.filterMap (fun m => ([] : List Nat)[m]?) = [] := List.filterMap_eq_nil_iff.2 (fun _ _ => rfl)
    rw [this]; exact Nat.le_refl _
  | cons x L ih =>
    have hsplit : (C.filterMap (fun m => (x :: L)[m]?)).count n ≤
        (if x = n then C.count 0 else 0) + (((C.filter (fun m => m ≠ 0)).map (· - 1)).filterMap (fun m => L[m]?)).count n := by
      clear hC ih
      induction C with
      | nil => simp
      | cons m C ih =>
        cases m with
        | zero =>
          simp only [List.filterMap_cons, List.getElem?_cons_zero, List.count_cons, ne_eq, not_true, decide_false, Bool.false_eq_true,
            not_false_iff, List.filter_cons_of_neg, beq_self_eq_true, if_true]
          by_cases hx : x = n
          · simp [hx] at ih ⊢; omega
          · simp [hx] at ih ⊢; omega
        | succ m =>
          simp only [List.filterMap_cons, List.getElem?_cons_succ, List.count_cons, ne_eq, Nat.succ_ne_zero, not_false_iff, decide_true, List.filter_cons_of_pos,
            List.map_cons, Nat.add_sub_cancel]
          cases hm : L[m]? with
          | none => simpa using ih
          | some y => simp only [List.count_cons] at ih ⊢; simp at ih ⊢; omega
    have hz : C.count 0 ≤ 1 := List.nodup_iff_count.1 hC 0
    have hn : ((C.filter (fun m => m ≠ 0)).map (· - 1)).Nodup := by
      have h1 : (C.filter (fun m => m ≠ 0)).Nodup := hC.filter _
      rw [List.nodup_iff_pairwise_ne, List.pairwise_map]
      refine List.Pairwise.imp_of_mem ?_ h1
      intro a b ha hb hab h
      have ha := (List.mem_filter.1 ha).2
      have hb := (List.mem_filter.1 hb).2
      simp at ha hb
      omega
    have := ih _ hn
    simp only [List.count_cons]
    by_cases hx : x = n
    · simp [hx] at hsplit ⊢; simp at this; omega
    · simp [hx] at hsplit ⊢; simp at this; omega

theorem calls_le (t : Topic) (es : List Event) (n : Nat) :
    ((calls crc o (Net.new t) es).map (·.seq)).count n ≤ (((Net.new t).run crc o es).deliveries.map (·.seq)).count n := by
  rw [calls_nos, List.map_filterMap]
  have := pick_count (((Net.new t).run crc o es).deliveries.map (·.seq)) n _ (NTok.run crc o t es).c
  simpa only [List.getElem?_map] using this

/-- Positions in increasing order pick values in the order of the list. -/
theorem pick_pairwise {R : Msg → Msg → Prop} {L : List Msg} (hL : L.Pairwise R) {C : List Nat} (hC : C.Pairwise (· < ·)) :
    (C.filterMap (fun m => L[m]?)).Pairwise R := by
  rw [List.pairwise_filterMap]
  refine hC.imp ?_
  intro i j hij a ha b hb
  rw [List.pairwise_iff_getElem] at hL
  obtain ⟨hi, ha⟩ := List.getElem?_eq_some_iff.1 ha
  obtain ⟨hj, hb⟩ := List.getElem?_eq_some_iff.1 hb
  have := hL i j hi hj hij
  rw [ha, hb] at this
  exact this

theorem callsOf_order {t : Topic} (hst : Stream.Started crc t) (k : Nat) (es : List Event) (hn : NoSeek o es) (hids : (newIds es).Nodup) :
    (callsOf crc o k (Net.new t) es).Pairwise (fun a b => a.seq < b.seq ∨ 2 ≤ delivered crc o t es b.seq) := by
  rw [callsOf_nos]
  exact pick_pairwise (deliveries_order crc o hst es hn hids) (List.pairwise_append.1 (Ord.run crc o t k es).sorted).1

/-- The published messages. -/
theorem published_server (n : Nat) (s : Net) (es : List Event) : Stream.published n (serverEvents crc o s es) = published n es := by
  induction es generalizing s n with
  | nil => rfl
  | cons e es ih =>
    rw [serverEvents]
    cases e with
    | exec i conn c order =>
      simp only [serverEvent, published]
      cases s.requests[i]? with
      | none => exact ih _ _
      | some q => cases q <;> exact ih _ _
    | server x => cases x <;> simp only [serverEvent, List.cons_append, List.nil_append, Stream.published, published, ih]
    | _ => exact ih _ _

theorem published_snoc_sub (n : Nat) (es : List Event) (e : Event) {m : Msg} (h : m ∈ published n es) : m ∈ published n (es ++ [e]) := by
  induction es generalizing n with
  | nil => cases h
  | cons x es ih =>
    cases x with
    | server y =>
      cases y with
      | publish ts p =>
        simp only [published, List.cons_append, List.mem_cons] at h ⊢
        exact h.imp id (ih _)
      | _ => exact ih _ h
    | _ => exact ih _ h

theorem deliveries_published {base now : Nat} {H : List Msg} {t : Topic} (hst : Stream.StartsWith crc base H now t) (es : List Event)
    (hf : ∀ m ∈ published t.log.next es, Stream.Fits m) :
    ∀ m ∈ ((Net.new t).run crc o es).deliveries, m ∈ H ++ published t.log.next es := by
  induction es using Verif.Sdk.snoc_ind with
  | h0 => intro m hm; cases hm
  | h1 es e ih =>
    intro m hm
    have ih := ih (fun m hm => hf m (published_snoc_sub _ _ _ hm))
    have up : m ∈ H ++ published t.log.next es → m ∈ H ++ published t.log.next (es ++ [e]) := by
      intro h
      rcases List.mem_append.1 h with h | h
      · exact List.mem_append_left _ h
      · exact List.mem_append_right _ (published_snoc_sub _ _ _ h)
    rw [run_snoc] at hm
    rcases deliveries_step crc o (Work.run crc o t es) e with h | ⟨x, q, ms, rfl, hx, hq, h⟩
    · rw [h] at hm; exact up (ih m hm)
    · rw [h] at hm
      rcases List.mem_append.1 hm with hm | hm
      · exact up (ih m hm)
      · rw [topic_run] at hx
        have := Stream.C39_fetch hst (serverEvents crc o (Net.new t) es) x (by
          rw [published_server]; exact fun m hm => hf m (published_snoc_sub _ _ _ hm)) q ms hx m hm
        rw [published_server] at this
        exact up this

end Verif.StreamE2E
