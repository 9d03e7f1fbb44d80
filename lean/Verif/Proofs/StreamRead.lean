import Verif.Proofs.StreamPending

/-!
# Reads
-/

namespace Verif.Stream

variable {crc : Bytes → Nat} {base : Nat} {H : List Msg} {now clock : Nat} {t : Topic} {f : Nat} {W : List Msg}

/-! ### Memory -/

/-- The messages in memory are the newest ones. -/
structure MemOk (base : Nat) (H : List Msg) (t : Topic) : Prop where
  mem : t.log.msgs <:+ H
  next : t.log.next = base + H.length

theorem MemOk.step (h : MemOk base H t) (hi : TInv t) (crc : Bytes → Nat) (e : Ev) :
    MemOk base (H ++ published t.log.next [e]) (Topic.step crc t e).1 := by
  by_cases hw : e.writes = false
  · have hp : published t.log.next [e] = [] := by cases e <;> first | rfl | cases hw
    have hf := step_dframe t crc e hw
    rw [hp, List.append_nil]
    exact ⟨by rw [hf.log]; exact h.mem, by rw [hf.log]; exact h.next⟩
  have same : ∀ t' : Topic, t'.log = t.log → MemOk base (H ++ []) t' := fun t' hl =>
    ⟨by rw [hl, List.append_nil]; exact h.mem, by rw [hl, List.append_nil]; exact h.next⟩
  cases e with
  | publish ts p =>
    simp only [Topic.step, Log.append, published]
    refine ⟨?_, ?_⟩
    · obtain ⟨x, hx⟩ := h.mem
      exact ⟨x, by rw [← List.append_assoc, hx]⟩
    · simp only [List.length_append, List.length_singleton, h.next]; omega
  | evictRun =>
    simp only [Topic.step, published]
    split
    · exact same _ rfl
    · next p hp =>
      obtain ⟨k, a, b, c⟩ := evictLoop_spec (soft := t.log.softLimit) (p := p) t.log.msgs t.log.ramStart hi.log.win hi.log.low
      rw [List.append_nil]
      refine ⟨?_, h.next⟩
      simp only [Log.evict, b]; exact suffix_drop h.mem k
  | retainDone =>
    simp only [Topic.step, published]
    split
    · unfold Topic.applyOutcome
      split
      · rw [List.append_nil]
        refine ⟨?_, h.next⟩
        exact (List.dropWhile_suffix _).trans h.mem
      · exact same _ rfl
    · exact same _ rfl
  | send i => simp only [Topic.step, published]; split <;> exact same _ rfl
  | evictLoad => exact same _ rfl
  | retainSend => simp only [Topic.step, published]; split <;> exact same _ rfl
  | storage now =>
    simp only [Topic.step, published]
    split
    · exact same _ rfl
    · next c cs hc => cases c <;> exact same _ rfl
  | flush now => simp only [Topic.step, published, Topic.flushAll]; split <;> exact same _ rfl
  | leak s n now => exact same _ rfl
  | closeHandle s now => exact same _ rfl
  | _ => exact absurd rfl hw

theorem MemOk.run (h : MemOk base H t) (hi : TInv t) (crc : Bytes → Nat) (es : List Ev) :
    MemOk base (H ++ published t.log.next es) (Topic.run crc t es) := by
  induction es generalizing t H with
  | nil => simpa [published, Topic.run] using h
  | cons e es ih =>
    have hs := h.step hi crc e
    have := ih hs (hi.step crc e)
    have hnext : (t.step crc e).1.log.next = t.log.next + (published t.log.next [e]).length := by
      rw [hs.next, h.next, List.length_append]; omega
    have hp : published t.log.next (e :: es) = published t.log.next [e] ++ published (t.log.next + (published t.log.next [e]).length) es :=
      published_append t.log.next [e] es
    rw [hp, ← List.append_assoc, ← hnext]
    exact this

/-- A read that is answered at once. -/
theorem MemOk.read (h : MemOk base H t) (hi : TInv t) {fromSeq limit id : Nat} {ms : List Msg}
    (hr : (t.step crc (.read fromSeq limit)).2 = .readReply id ms) :
    ms = (H.drop (max fromSeq t.log.head - base)).take limit := by
  have hlen := hi.log.len
  have hh := hi.log.head1
  have hnext := h.next
  obtain ⟨x, hx⟩ := h.mem
  have hxl := congrArg List.length hx
  rw [List.length_append] at hxl
  simp only [Topic.step, Topic.startRead] at hr
  split at hr
  · cases hr
  · next hc =>
    simp only [Out.readReply.injEq] at hr
    rw [← hr.2]
    unfold Log.read at hc ⊢
    rw [show max (max (max fromSeq t.log.head) t.log.head) 1 = max fromSeq t.log.head by omega] at hc ⊢
    split
    · next hb =>
      simp only [Bool.and_eq_true, decide_eq_true_eq] at hb
      rw [← hx, List.drop_append, List.drop_of_length_le (l := x) (by omega), List.nil_append]
      congr 2
      omega
    · next hb =>
      rw [if_neg hb] at hc
      simp only [List.isEmpty_nil, Bool.true_and, Bool.and_eq_true, decide_eq_true_eq] at hc
      have : t.log.next ≤ max fromSeq t.log.head := by
        by_cases h1 : t.log.ramStart ≤ max fromSeq t.log.head
        · by_cases h2 : t.log.msgs = []
          · rw [h2] at hlen; simp only [List.length_nil] at hlen; omega
          · simp only [Bool.and_eq_true, decide_eq_true_eq, Bool.not_eq_true', List.isEmpty_eq_false_iff] at hb
            have : ¬ (max fromSeq t.log.head - t.log.ramStart < t.log.msgs.length) := fun h3 => hb ⟨⟨h1, h2⟩, h3⟩
            omega
        · omega
      rw [List.drop_of_length_le (by omega)]
      simp

/-! ### Files -/

/-- A read that waits for the files, or has been answered from them. -/
structure ReadOk (base id eff limit : Nat) (H : List Msg) (t : Topic) (f : Nat) : Prop where
  old : id < t.nextOp
  flushed : eff ≤ t.persisted
  asked : ∀ fr l, SCmd.coldRead id fr l ∈ t.chan → fr = eff ∧ l = limit
  answer : ∀ ms, mget t.reads id = some (some ms) → ∃ s, eff ≤ s ∧ s ≤ max eff f ∧ ms <+: H.drop (s - base)
    ∧ ms.length ≤ limit ∧ (s = eff → 0 < limit → ms ≠ [])

theorem prefix_drop_append {a b x : List Msg} {k : Nat} (h : a <+: b.drop k) : a <+: (b ++ x).drop k := by
  rw [List.drop_append]
  exact h.trans (List.prefix_append _ _)

theorem ReadOk.step {id eff limit : Nat} (h : ReadOk base id eff limit H t f) (hd : DInv crc base H clock t f W) (e : Ev)
    {f' : Nat} (hf : f ≤ f') (hp : t.persisted ≤ (Topic.step crc t e).1.persisted) (x : List Msg) :
    ReadOk base id eff limit (H ++ x) (Topic.step crc t e).1 f' := by
  have w := step_waits crc t e
  have hn := w.next
  have hold := h.old
  have hfl := h.flushed
  refine ⟨by omega, by omega, ?_, ?_⟩
  · intro fr l hc
    rcases w.coldReads id fr l hc with h1 | h1
    · exact h.asked fr l h1
    · omega
  · intro ms hm
    rcases w.reads id ms hm with h1 | ⟨fr, l, cs, h1, h2⟩
    · obtain ⟨s, a1, a2, a3, a4, a5⟩ := h.answer ms h1
      exact ⟨s, a1, by omega, prefix_drop_append a3, a4, a5⟩
    · obtain ⟨e1, e2⟩ := h.asked fr l (by rw [h1]; exact List.mem_cons_self)
      subst e1; subst e2
      obtain ⟨D, d1, d2, d3⟩ := hd.disk.coldRead hd.fitsW hd.numW
      have hlow := hd.low
      refine ⟨max fr f, by omega, by omega, ?_, ?_, ?_⟩
      · apply prefix_drop_append
        rw [h2, d3]
        have : H.drop (max fr f - base) = (W ++ (chanMsgs t.chan ++ t.sends)).drop (fr - f) := by
          rw [hd.flow, List.drop_drop]; congr 1; omega
        rw [this, List.drop_append]
        refine List.IsPrefix.trans (List.take_prefix _ _) (List.IsPrefix.trans ?_ (List.prefix_append _ _))
        rw [List.drop_take]
        exact List.take_prefix _ _
      · rw [h2]; exact coldRead_len _ _ _ _
      · intro he hl hnil
        rw [h2, d3] at hnil
        have := congrArg List.length hnil
        simp only [List.length_take, List.length_drop, List.length_nil] at this
        omega

/-- A read that has to wait for the files. -/
theorem ReadOk.start {fromSeq limit : Nat} (hd : DInv crc base H clock t f W) (hi : TInv t) (hid : IdsOk t)
    (hr : (t.step crc (.read fromSeq limit)).2 = .none) :
    ReadOk base t.nextOp (max fromSeq t.log.head) limit H (t.step crc (.read fromSeq limit)).1 f := by
  simp only [Topic.step, Topic.startRead] at hr ⊢
  split at hr
  · next hc =>
    rw [if_pos hc]
    simp only [Bool.and_eq_true, decide_eq_true_eq] at hc
    have := hd.ram
    refine ⟨Nat.lt_succ_self _, by simp only; omega, ?_, ?_⟩
    · intro fr l hm
      rcases List.mem_append.1 hm with hm | hm
      · have := hid.read _ _ _ hm; omega
      · simp only [List.mem_singleton, SCmd.coldRead.injEq] at hm; exact hm.2
    · intro ms hm
      simp only [mget_mset, if_true] at hm
      cases hm
  · cases hr

end Verif.Stream
