import Verif.Proofs.StreamFault
import Verif.Proofs.StreamHist

/-!
# Failing flushes lose nothing while the server runs

The invariant: the files and the writers' buffers hold the messages `W` as they would if the failing flushes had not been
attempted (`DiskInv` with a context `c0` and a mark `p0` of its own); the published mark is at most the last message written.
-/

namespace Verif.Stream

variable {crc : Bytes → Nat} {base : Nat} {H : List Msg} {clock : Nat} {t : Topic} {f : Nat} {W : List Msg}

/-- The two contexts agree about the active segment; what is to be published is the last message written. -/
def CtxLike : Option Ctx → Option Ctx → Prop
  | none, none => True
  | some c, some c0 => c.active = c0.active ∧ c.size = c0.size ∧ (c.dirty = true → c0.dirty = true ∧ c.highest = c0.highest)
  | _, _ => False

structure FInv (crc : Bytes → Nat) (base : Nat) (H : List Msg) (clock : Nat) (t : Topic) (f : Nat) (W : List Msg) : Prop where
  disk : ∃ c0 p0, DiskInv crc (t.cfg.retention.maxAge ≠ none) clock f W t.disk c0 p0 ∧ CtxLike t.ctx c0
  flow : W ++ (chanMsgs t.chan ++ t.sends) = H.drop (f - base)
  low : base ≤ f
  high : f ≤ base + H.length
  num : Numbered base H
  fits : ∀ m ∈ H, Fits m
  next : t.log.next = base + H.length
  mem : t.log.msgs <:+ H
  ram : t.log.ramStart ≤ max (f + W.length) t.log.head
  per : t.persisted + 1 ≤ f + W.length
  headLow : base ≤ t.log.head
  headHigh : t.log.head ≤ f
  reg : ∀ p, t.evictReg = some p → p + 1 ≤ f + W.length
  ret : ∀ h, t.retain = .outcome h → h = f

theorem FInv.numW (h : FInv crc base H clock t f W) : Numbered f W := by
  have := h.num.drop (f - base)
  rw [← h.flow, show base + (f - base) = f by have := h.low; omega] at this
  exact this.append.1

theorem FInv.fitsW (h : FInv crc base H clock t f W) : ∀ m ∈ W, Fits m := by
  intro m hm
  have : m ∈ H.drop (f - base) := by rw [← h.flow]; exact List.mem_append_left _ hm
  exact h.fits m (List.mem_of_mem_drop this)

theorem FInv.lenW (h : FInv crc base H clock t f W) :
    W.length + (chanMsgs t.chan).length + t.sends.length + f = base + H.length := by
  have := congrArg List.length h.flow
  simp only [List.length_append, List.length_drop] at this
  have := h.low; have := h.high
  omega

theorem DiskInv.mark (h : DiskInv crc A clock f W d ctx p) : p + 1 ≤ f + W.length := by
  cases h with
  | empty h1 h2 h3 h4 h5 h6 => omega
  | files pre l pp q buf h1 h2 h3 h4 h5 h6 h7 h8 =>
    have := h3.lStart
    rw [h2, List.length_append]; omega

theorem CtxLike.refl (c : Option Ctx) : CtxLike c c := by
  cases c with
  | none => trivial
  | some c => exact ⟨rfl, rfl, fun h => ⟨h, rfl⟩⟩

theorem DInv.toF (h : DInv crc base H clock t f W) : FInv crc base H clock t f W := by
  have hm := h.disk.mark
  have hr := h.ram
  exact ⟨⟨t.ctx, t.persisted, h.disk, CtxLike.refl _⟩, h.flow, h.low, h.high, h.num, h.fits, h.next, h.mem, by omega, hm, h.headLow,
    h.headHigh, fun p hp => (by have := h.reg p hp; omega), h.ret⟩

theorem DFrame.invF {t' : Topic} (hf : DFrame t t') (h : FInv crc base H clock t f W) : FInv crc base H clock t' f W := by
  obtain ⟨c0, p0, h1, h2⟩ := h.disk
  constructor <;> first
    | exact ⟨c0, p0, by rw [hf.cfg, hf.disk]; exact h1, by rw [hf.ctx]; exact h2⟩
    | (rw [hf.chan, hf.sends]; exact h.flow)
    | exact h.low
    | exact h.high
    | exact h.num
    | exact h.fits
    | (rw [hf.log]; exact h.next)
    | (rw [hf.log]; exact h.mem)
    | (rw [hf.log]; exact h.ram)
    | (rw [hf.persisted]; exact h.per)
    | (rw [hf.log]; exact h.headLow)
    | (rw [hf.log]; exact h.headHigh)
    | (rw [hf.reg]; exact h.reg)
    | (rw [hf.retain]; exact h.ret)

/-- The record goes to the same place. -/
theorem CtxLike.append {c c0 : Option Ctx} (h : CtxLike c c0) (crc : Bytes → Nat) (maxSegment : Nat) (d : Disk) (m : Msg) (now : Nat) :
    appendTo crc maxSegment d (c.getD (Ctx.open d)) m now = appendTo crc maxSegment d (c0.getD (Ctx.open d)) m now := by
  cases c with
  | none =>
    cases c0 with
    | none => rfl
    | some c0 => cases h
  | some c =>
    cases c0 with
    | none => cases h
    | some c0 =>
      obtain ⟨h1, h2, _⟩ := h
      cases c; cases c0
      simp only at h1 h2
      subst h1 h2
      rfl

/-- What has been written so far is the last message to be published as persisted. -/
theorem DiskInv.highest {A : Prop} {d : Disk} {c0 : Ctx} {p0 : Nat} (h : DiskInv crc A clock f W d (some c0) p0) (hd : c0.dirty = true) :
    c0.highest + 1 = f + W.length := by
  cases h with
  | empty h1 h2 h3 h4 h5 h6 => cases h3
  | files pre l pp q buf h1 h2 h3 h4 h5 h6 h7 h8 =>
    have := h3.lStart
    have := ((h6 c0 rfl).2.2.1 hd).1
    rw [h2, List.length_append]; omega

/-- After a flush the files hold everything that has been written. -/
theorem DiskInv.full {A : Prop} {d : Disk} {ctx : Option Ctx} {p0 : Nat} (h : DiskInv crc A clock f W d ctx p0)
    (hw : d.writers = [] ∨ ∃ s, d.writers = [(s, [])]) : DiskInv crc A clock f W d ctx (f + W.length - 1) := by
  cases h with
  | empty h1 h2 h3 h4 h5 h6 => exact .empty h1 h2 h3 h4 h5 (by rw [h4, h5]; rfl)
  | files pre l pp p buf h1 h2 h3 h4 h5 h6 h7 h8 =>
    have hbuf : buf = [] := by
      rcases h4 with ⟨_, h4⟩ | h4
      · exact h4
      · rcases hw with hw | ⟨s, hw⟩
        · rw [hw] at h4; cases h4
        · rw [hw] at h4
          simp only [List.cons.injEq, Prod.mk.injEq, and_true] at h4
          exact h4.2.symm
    subst hbuf
    have hfull : l.data = records crc p := by have := h3.lData; rwa [List.append_nil] at this
    have hl := h3.lStart
    refine .files pre l pp p [] h1 h2 h3 h4 h5 h6 ?_ ?_
    · rw [h2, List.length_append]; omega
    · intro j hj _
      rw [hfull]
      have : records crc p = records crc (p.take j) ++ records crc (p.drop j) := by
        rw [← records_append, List.take_append_drop]
      rw [this, List.length_append]
      omega

theorem DiskInv.flushSome {A : Prop} {d : Disk} {ctx : Option Ctx} {p0 : Nat} (h : DiskInv crc A clock f W d ctx p0)
    (bad : List (Nat × Nat)) {now : Nat} (hc : A → clock ≤ now) : DiskInv crc A now f W (d.flushSome bad now) ctx p0 := by
  unfold Disk.flushSome
  generalize mkeys d.writers = ks
  have h' := h.mono hc
  clear h
  induction ks generalizing d with
  | nil => exact h'
  | cons k ks ih =>
    simp only [List.foldl_cons]
    refine ih ?_
    split
    · exact h'.leak _ _ (fun _ => Nat.le_refl _)
    · exact h'.flush _ (fun _ => Nat.le_refl _)

/-- What `flush_all` publishes is at most what has been written. -/
theorem FInv.publishes (hd : FInv crc base H clock t f W) {c : Ctx} (hc : t.ctx = some c) :
    (if c.dirty && decide (0 < c.highest) then c.highest else t.persisted) + 1 ≤ f + W.length := by
  obtain ⟨c0, p0, h1, h2⟩ := hd.disk
  split
  · next hb =>
    simp only [Bool.and_eq_true, decide_eq_true_eq] at hb
    rw [hc] at h2
    cases c0 with
    | none => cases h2
    | some c0 =>
      obtain ⟨e1, e2⟩ := h2.2.2 hb.1
      have := h1.highest e1
      omega
  · exact hd.per

theorem CtxLike.clear {c : Ctx} {c0 : Option Ctx} (h : CtxLike (some c) c0) :
    CtxLike (some (if c.dirty then { c with highest := 0, dirty := false } else c)) c0 := by
  cases c0 with
  | none => cases h
  | some c0 =>
    obtain ⟨h1, h2, h3⟩ := h
    split
    · exact ⟨h1, h2, fun h => by cases h⟩
    · exact ⟨h1, h2, h3⟩

theorem FInv.flushFail (hd : FInv crc base H clock t f W) (bad : List (Nat × Nat)) {now : Nat}
    (hclock : t.cfg.retention.maxAge ≠ none → clock ≤ now) : FInv crc base H now (t.flushSome bad now) f W := by
  obtain ⟨c0, p0, h1, h2⟩ := hd.disk
  have h3 := h1.flushSome bad hclock
  unfold Topic.flushSome
  cases hctx : t.ctx with
  | none =>
    rw [hctx] at h2
    exact ⟨⟨c0, p0, h3, by simp only [hctx]; exact h2⟩, hd.flow, hd.low, hd.high, hd.num, hd.fits, hd.next,
        hd.mem, hd.ram, hd.per, hd.headLow, hd.headHigh, hd.reg, hd.ret⟩
  | some c =>
    rw [hctx] at h2
    exact ⟨⟨c0, p0, h3, h2.clear⟩, hd.flow, hd.low, hd.high, hd.num, hd.fits, hd.next,
        hd.mem, hd.ram, hd.publishes hctx, hd.headLow, hd.headHigh, hd.reg, hd.ret⟩

theorem FInv.step (hd : FInv crc base H clock t f W) (hi : TInv t) (e : Ev) (horder : ∀ i, e = .send i → i = 0)
    (hclock : t.cfg.retention.maxAge ≠ none → clock ≤ e.time.getD clock)
    (hfits : ∀ m ∈ published t.log.next [e], Fits m) :
    ∃ f' W', FInv crc base (H ++ published t.log.next [e]) (e.time.getD clock) (t.step crc e).1 f' W' := by
  have hmono : ∀ (e : Ev), e.writes = false → e.time = none ∧ published t.log.next [e] = [] := by
    intro e he
    cases e <;> first | (exact ⟨rfl, rfl⟩) | (cases he)
  by_cases hw : e.writes = false
  · obtain ⟨h1, h2⟩ := hmono e hw
    have hf := step_dframe t crc e hw
    refine ⟨f, W, ?_⟩
    rw [h1, h2, List.append_nil]
    exact hf.invF hd
  obtain ⟨c0, p0, hdisk, hlike⟩ := hd.disk
  cases e with
  | publish ts p =>
    refine ⟨f, W, ?_⟩
    have hl := hi.log
    have hrs : (if t.log.msgs.isEmpty then t.log.next else t.log.ramStart) = t.log.ramStart := by
      split
      · next he =>
        have := hl.len
        rw [List.isEmpty_iff.1 he] at this
        simpa using this.symm
      · rfl
    have hlen := hd.lenW
    simp only [Topic.step, Log.append, published, Ev.time, Option.getD_none, hrs]
    refine ⟨hd.disk, ?_, hd.low, ?_, ?_, ?_, ?_, ?_, hd.ram, hd.per, hd.headLow, hd.headHigh, hd.reg, hd.ret⟩
    · rw [List.drop_append_of_le_length (by have := hd.high; omega), ← hd.flow]
      simp
    · have := hd.high
      simp only [List.length_append, List.length_singleton]; omega
    · exact WindowOk.snoc (ms := H) (rs := base) hd.num (by simp only; exact hd.next)
    · intro m hm
      rcases List.mem_append.1 hm with hm | hm
      · exact hd.fits m hm
      · exact hfits m (by simpa [published] using hm)
    · simp only [List.length_append, List.length_singleton, hd.next]; omega
    · obtain ⟨x, hx⟩ := hd.mem
      exact ⟨x, by rw [← List.append_assoc, hx]⟩
  | send i =>
    have hi0 := horder i rfl
    subst hi0
    refine ⟨f, W, ?_⟩
    simp only [Topic.step, published, Ev.time, Option.getD_none, List.append_nil]
    split
    · exact hd
    · next m hm =>
      refine ⟨hd.disk, ?_, hd.low, hd.high, hd.num, hd.fits, hd.next, hd.mem, hd.ram, hd.per, hd.headLow, hd.headHigh, hd.reg, hd.ret⟩
      rw [← hd.flow]
      cases hs : t.sends with
      | nil => rw [hs] at hm; cases hm
      | cons x xs =>
        rw [hs] at hm
        simp only [List.getElem?_cons_zero, Option.some.injEq] at hm
        simp only [chanMsgs_append, List.eraseIdx_cons_zero]
        simp [chanMsgs, hm]
  | evictLoad =>
    refine ⟨f, W, ?_⟩
    simp only [Topic.step, published, Ev.time, Option.getD_none, List.append_nil]
    exact ⟨hd.disk, hd.flow, hd.low, hd.high, hd.num, hd.fits, hd.next, hd.mem, hd.ram, hd.per, hd.headLow, hd.headHigh,
      fun p hp => by cases hp; exact hd.per, hd.ret⟩
  | evictRun =>
    refine ⟨f, W, ?_⟩
    simp only [Topic.step, published, Ev.time, Option.getD_none, List.append_nil]
    split
    · exact hd
    · next p hp =>
      have hle := hd.reg p hp
      obtain ⟨k, a, b, c⟩ := evictLoop_spec (soft := t.log.softLimit) (p := p) t.log.msgs t.log.ramStart hi.log.win hi.log.low
      refine ⟨hd.disk, hd.flow, hd.low, hd.high, hd.num, hd.fits, hd.next, ?_, ?_, hd.per, hd.headLow, hd.headHigh,
        fun p hp => (by cases hp), hd.ret⟩
      · simp only [Log.evict, b]; exact suffix_drop hd.mem k
      · simp only [Log.evict, b]
        have hram := hd.ram
        cases k with
        | zero => omega
        | succ k =>
          have hlt : k < t.log.msgs.length := by omega
          have hmem : t.log.msgs[k] ∈ t.log.msgs.take (k + 1) := by
            rw [List.mem_take_iff_getElem]
            exact ⟨k, by omega, rfl⟩
          have h1 := c _ hmem
          have h2 := hi.log.win k _ (List.getElem?_eq_getElem hlt)
          omega
  | retainSend =>
    refine ⟨f, W, ?_⟩
    simp only [Topic.step, published, Ev.time, Option.getD_none, List.append_nil]
    split
    · refine ⟨hd.disk, ?_, hd.low, hd.high, hd.num, hd.fits, hd.next, hd.mem, hd.ram, hd.per, hd.headLow, hd.headHigh, hd.reg,
        fun h hh => by cases hh⟩
      simp only [chanMsgs_append]
      have := hd.flow
      simpa [chanMsgs] using this
    · exact hd
  | retainDone =>
    refine ⟨f, W, ?_⟩
    simp only [Topic.step, published, Ev.time, Option.getD_none, List.append_nil]
    split
    · next hd' hr =>
      have hh := hd.ret hd' hr
      subst hh
      have hb1 := hi.log.head1
      have hfn : hd' ≤ t.log.next := by rw [hd.next]; exact hd.high
      have hhh := hd.headHigh
      unfold Topic.applyOutcome
      split
      · obtain ⟨h1, h2⟩ := applyHead_ram hi.log hfn
        have hhead : (t.log.applyHead hd').head = max hd' 1 := rfl
        refine ⟨hd.disk, hd.flow, hd.low, hd.high, hd.num, hd.fits, hd.next, ?_, ?_, hd.per, ?_, ?_, hd.reg, fun h hh => by cases hh⟩
        · show (t.log.applyHead hd').msgs <:+ H
          rw [h2]; exact suffix_drop hd.mem _
        · show (t.log.applyHead hd').ramStart ≤ max (hd' + W.length) (t.log.applyHead hd').head
          rw [h1, hhead]
          have := hd.ram
          omega
        · show base ≤ (t.log.applyHead hd').head
          rw [hhead]; have := hd.low; omega
        · show (t.log.applyHead hd').head ≤ hd'
          rw [hhead]; omega
      · exact ⟨hd.disk, hd.flow, hd.low, hd.high, hd.num, hd.fits, hd.next, hd.mem, hd.ram, hd.per, hd.headLow, hd.headHigh, hd.reg,
          fun h hh => by cases hh⟩
    · exact hd
  | storage now =>
    have hclock : t.cfg.retention.maxAge ≠ none → clock ≤ now := hclock
    simp only [Topic.step, published, Ev.time, Option.getD_some, List.append_nil]
    split
    · exact ⟨f, W, ⟨⟨c0, p0, hdisk.mono hclock, hlike⟩, hd.flow, hd.low, hd.high, hd.num, hd.fits, hd.next,
        hd.mem, hd.ram, hd.per, hd.headLow, hd.headHigh, hd.reg, hd.ret⟩⟩
    · next c cs hc =>
      have hflow := hd.flow
      rw [hc] at hflow
      have other : ∀ (t' : Topic), t'.log = t.log → t'.disk.segs = t.disk.segs → t'.disk.writers = t.disk.writers →
          t'.ctx = t.ctx → t'.sends = t.sends → t'.retain = t.retain → t'.cfg = t.cfg → t'.persisted = t.persisted →
          t'.evictReg = t.evictReg → t'.chan = cs → chanMsgs (c :: cs) = chanMsgs cs →
          ∃ f' W', FInv crc base H now t' f' W' := by
        intro t' h1 h2 h2' h3 h4 h5 h6 h7 h8 h9 h10
        refine ⟨f, W, ⟨⟨c0, p0, ?_, by rw [h3]; exact hlike⟩, ?_, hd.low, hd.high, hd.num, hd.fits,
          by rw [h1]; exact hd.next, by rw [h1]; exact hd.mem, by rw [h1]; exact hd.ram, by rw [h7]; exact hd.per, by rw [h1]; exact hd.headLow,
          by rw [h1]; exact hd.headHigh, by rw [h8]; exact hd.reg, by rw [h5]; exact hd.ret⟩⟩
        · rw [h6]
          cases hdisk.mono hclock with
          | empty a1 a2 a3 a4 a5 a6 => exact .empty (h2.trans a1) (h2'.trans a2) a3 a4 a5 a6
          | files pre l pp p buf a1 a2 a3 a4 a5 a6 a7 a8 =>
            exact .files pre l pp p buf (h2.trans a1) a2 a3 (by rw [h2']; exact a4) a5 a6 a7 a8
        · rw [h9, h4]
          rw [h10] at hflow
          exact hflow
      cases c with
      | append m =>
        have e1 : chanMsgs (SCmd.append m :: cs) = m :: chanMsgs cs := by simp [chanMsgs]
        rw [e1] at hflow
        have hm : m.seq = f + W.length := by
          have := hd.num.drop (f - base)
          rw [← hflow, show base + (f - base) = f by have := hd.low; omega] at this
          have := this.append.2 0 m (by simp)
          omega
        have hap := hlike.append crc t.cfg.maxSegment t.disk m now
        have hper := hd.per; have hram := hd.ram
        have hnew := hdisk.append t.cfg.maxSegment m hm hclock
        rw [← hap] at hnew
        refine ⟨f, W ++ [m], ⟨⟨_, p0, hnew, CtxLike.refl _⟩ , ?_, hd.low, hd.high,
          hd.num, hd.fits, hd.next, hd.mem, ?_, ?_, hd.headLow, hd.headHigh, fun p hp => ?_, hd.ret⟩⟩
        · rw [← hflow]; simp [Topic.handle]
        · simp only [List.length_append, List.length_singleton, Topic.handle]; omega
        · simp only [List.length_append, List.length_singleton, Topic.handle]; omega
        · have := hd.reg p hp
          simp only [List.length_append, List.length_singleton]; omega
      | cold id fr l => exact other _ rfl rfl rfl rfl rfl rfl rfl rfl rfl rfl (by simp [chanMsgs])
      | coldRead id fr l => exact other _ rfl rfl rfl rfl rfl rfl rfl rfl rfl rfl (by simp [chanMsgs])
      | save gs => exact other _ rfl rfl rfl rfl rfl rfl rfl rfl rfl rfl (by simp [chanMsgs])
      | retention =>
        have e1 : chanMsgs (SCmd.retention :: cs) = chanMsgs cs := by simp [chanMsgs]
        rw [e1] at hflow
        obtain ⟨f', k, h1, h2, h3, h4⟩ := hdisk.retain t.cfg.retention hclock id
        have hlow := hd.low; have hhigh := hd.high; have hlen := hd.lenW; have hhh := hd.headHigh
        have hper := hd.per; have hram := hd.ram
        have hsum : f' + (W.drop k).length = f + W.length := by rw [List.length_drop]; omega
        refine ⟨f', W.drop k, ⟨⟨c0, p0, h4, hlike⟩, ?_, by omega, by omega, hd.num, hd.fits, hd.next, hd.mem, ?_, ?_,
          hd.headLow, ?_, ?_, ?_⟩⟩
        · have : H.drop (f' - base) = (H.drop (f - base)).drop k := by rw [List.drop_drop]; congr 1; omega
          rw [this, ← hflow, List.drop_append_of_le_length h2]
          rfl
        · rw [hsum]; exact hram
        · rw [hsum]; exact hper
        · show t.log.head ≤ f'; omega
        · rw [hsum]; exact hd.reg
        · intro h hh
          simp only [Topic.handle, RetPhase.outcome.injEq] at hh
          rw [← hh]; exact h3
  | flush now =>
    have hclock : t.cfg.retention.maxAge ≠ none → clock ≤ now := hclock
    obtain ⟨h1, h2⟩ := hdisk.flushAll hclock
    simp only [Topic.step, published, Ev.time, Option.getD_some, List.append_nil, Topic.flushAll]
    cases hctx : t.ctx with
    | none =>
      refine ⟨f, W, ⟨⟨c0, p0, h1, ?_⟩, hd.flow, hd.low, hd.high, hd.num, hd.fits, hd.next,
        hd.mem, hd.ram, hd.per, hd.headLow, hd.headHigh, hd.reg, hd.ret⟩⟩
      rw [hctx] at hlike
      exact hlike
    | some c =>
      rw [hctx] at hlike
      exact ⟨f, W, ⟨⟨c0, p0, h1, hlike.clear⟩, hd.flow, hd.low, hd.high, hd.num, hd.fits, hd.next,
        hd.mem, hd.ram, hd.publishes hctx, hd.headLow, hd.headHigh, hd.reg, hd.ret⟩⟩
  | leak s n now =>
    have hclock : t.cfg.retention.maxAge ≠ none → clock ≤ now := hclock
    refine ⟨f, W, ?_⟩
    simp only [Topic.step, published, Ev.time, Option.getD_some, List.append_nil]
    exact ⟨⟨c0, p0, hdisk.leak s n hclock, hlike⟩, hd.flow, hd.low, hd.high, hd.num, hd.fits, hd.next,
        hd.mem, hd.ram, hd.per, hd.headLow, hd.headHigh, hd.reg, hd.ret⟩
  | closeHandle s now =>
    have hclock : t.cfg.retention.maxAge ≠ none → clock ≤ now := hclock
    refine ⟨f, W, ?_⟩
    simp only [Topic.step, published, Ev.time, Option.getD_some, List.append_nil]
    exact ⟨⟨c0, p0, hdisk.close s hclock, hlike⟩, hd.flow, hd.low, hd.high, hd.num, hd.fits, hd.next,
        hd.mem, hd.ram, hd.per, hd.headLow, hd.headHigh, hd.reg, hd.ret⟩
  | _ => exact absurd rfl hw

theorem flushSome_starts {d : Disk} {bad : List (Nat × Nat)} {now : Nat} {x : Seg} (h : x ∈ (d.flushSome bad now).segs) :
    ∃ y ∈ d.segs, y.start = x.start := by
  unfold Disk.flushSome at h
  revert h
  generalize mkeys d.writers = ks
  intro h
  induction ks generalizing d with
  | nil => exact ⟨x, h, rfl⟩
  | cons k ks ih =>
    simp only [List.foldl_cons] at h
    obtain ⟨y, hy, e⟩ := ih h
    split at hy
    · obtain ⟨z, hz, e'⟩ := leak_starts hy
      exact ⟨z, hz, e'.trans e⟩
    · unfold Disk.flush at hy
      split at hy
      · exact ⟨y, hy, e⟩
      · obtain ⟨z, hz, e'⟩ := leak_starts hy
        exact ⟨z, hz, e'.trans e⟩

/-- A failure after which the bytes are still in memory. -/
theorem FInv.fail (hd : FInv crc base H clock t f W) (hi : TInv t) (x : Fault) (hk : (Topic.FEv.fault x).keeps)
    (hclock : t.cfg.retention.maxAge ≠ none → clock ≤ (Topic.FEv.fault x).time.getD clock) :
    FInv crc base H ((Topic.FEv.fault x).time.getD clock) (t.fail crc x) f W ∧ TInv (t.fail crc x) := by
  have drop : ∀ (t' : Topic) c cs, t.chan = c :: cs → chanMsgs (c :: cs) = chanMsgs cs → t'.chan = cs → t'.log = t.log → t'.disk = t.disk →
      t'.ctx = t.ctx → t'.sends = t.sends → t'.retain = t.retain → t'.cfg = t.cfg → t'.persisted = t.persisted → t'.evictReg = t.evictReg →
      FInv crc base H clock t' f W ∧ TInv t' := by
    intro t' c cs h1 h2 h3 h4 h5 h6 h7 h8 h9 h10 h11
    refine ⟨DFrame.invF ⟨h4, h5, h6, h7, h8, h9, h10, h11, by rw [h3, h1, h2]⟩ hd, ⟨h4 ▸ hi.log, ?_, ?_, ?_, ?_, ?_⟩⟩
    · rw [h5, h4]; exact hi.segs
    · rw [h6, h4]; exact hi.ctx
    · rw [h3, h4]; exact fun m hm => hi.chan m (by rw [h1]; exact List.mem_cons_of_mem _ hm)
    · rw [h7, h4]; exact hi.sends
    · rw [h8, h4]; exact hi.retain
  cases x with
  | noDir => exact absurd hk id
  | noOpen _ => exact absurd hk id
  | noWrite _ _ => exact absurd hk id
  | noClose _ _ _ => exact absurd hk id
  | noFlush bad now =>
    refine ⟨hd.flushFail bad hclock, ?_⟩
    have hseg : ∀ s ∈ (t.disk.flushSome bad now).segs, s.start ≤ t.log.next := fun s hs => by
      obtain ⟨y, hy, e⟩ := flushSome_starts hs
      rw [← e]; exact hi.segs y hy
    simp only [Topic.fail, Topic.flushSome]
    split
    · exact ⟨hi.log, hseg, hi.ctx, hi.chan, hi.sends, hi.retain⟩
    · next c hc =>
      refine ⟨hi.log, hseg, fun c' hc' => ?_, hi.chan, hi.sends, hi.retain⟩
      simp only [Option.some.injEq] at hc'
      have := hi.ctx c hc
      rw [← hc']
      split <;> exact this
  | noSave =>
    simp only [Topic.fail]
    split
    · next hc => exact drop _ _ _ hc (by simp [chanMsgs]) rfl rfl rfl rfl rfl rfl rfl rfl rfl
    · exact ⟨hd, hi⟩
  | noRead bad =>
    simp only [Topic.fail]
    split
    · next hc => exact drop _ _ _ hc (by simp [chanMsgs]) rfl rfl rfl rfl rfl rfl rfl rfl rfl
    · next hc => exact drop _ _ _ hc (by simp [chanMsgs]) rfl rfl rfl rfl rfl rfl rfl rfl rfl
    · exact ⟨hd, hi⟩

theorem fail_cfg (crc : Bytes → Nat) (t : Topic) (x : Fault) : (t.fail crc x).cfg = t.cfg := by
  cases x <;> simp only [Topic.fail, Topic.flushSome] <;> (repeat' split) <;> rfl

theorem everPublished_ev (e : Ev) (es : List Topic.FEv) :
    everPublished crc t (.ev e :: es) = published t.log.next [e] ++ everPublished crc (t.step crc e).1 es := by
  cases e <;> rfl

theorem FInv.runF (es : List Topic.FEv) : ∀ {t : Topic} {H : List Msg} {clock f : Nat} {W : List Msg}, FInv crc base H clock t f W → TInv t →
    OrderlyF crc clock t es →
    ∃ f' W' clock', FInv crc base (H ++ everPublished crc t es) clock' (t.runF crc es) f' W' ∧ TInv (t.runF crc es)
      ∧ (t.runF crc es).cfg = t.cfg ∧ ((t.cfg.retention.maxAge ≠ none) → ∀ now, ForwardF clock (es ++ [.ev (.flush now)]) → clock' ≤ now) := by
  induction es with
  | nil =>
    intro t H clock f W h hi _
    exact ⟨f, W, clock, by simpa [everPublished, Topic.runF] using h, hi, rfl, fun _ now hf => hf.1⟩
  | cons e es ih =>
    intro t H clock f W h hi ho
    have hkeep := ho.keeps e List.mem_cons_self
    cases e with
    | ev e =>
      have hpub := everPublished_ev (crc := crc) (t := t) e es
      obtain ⟨f1, W1, h1⟩ := h.step hi e (fun i hi => ho.inOrder i (by rw [hi]; exact List.mem_cons_self))
        (fun ha => (ho.clock ha).1) (fun m hm => ho.fits m (by rw [hpub]; exact List.mem_append_left _ hm))
      have hcfg := step_cfg crc t e
      obtain ⟨f2, W2, c2, a1, a2, a3, a4⟩ := ih h1 (hi.step crc e) ⟨fun x hx => ho.keeps x (List.mem_cons_of_mem _ hx),
        fun i hi => ho.inOrder i (List.mem_cons_of_mem _ hi), fun ha => (ho.clock (by rw [← hcfg]; exact ha)).2,
        fun m hm => ho.fits m (by rw [hpub]; exact List.mem_append_right _ hm)⟩
      rw [List.append_assoc, ← hpub] at a1
      exact ⟨f2, W2, c2, a1, a2, a3.trans hcfg, fun ha now hf => a4 (by rw [hcfg]; exact ha) now hf.2⟩
    | fault x =>
      obtain ⟨h1, hi1⟩ := h.fail hi x hkeep (fun ha => (ho.clock ha).1)
      have hcfg := fail_cfg crc t x
      obtain ⟨f2, W2, c2, a1, a2, a3, a4⟩ := ih h1 hi1 ⟨fun x hx => ho.keeps x (List.mem_cons_of_mem _ hx),
        fun i hi => ho.inOrder i (List.mem_cons_of_mem _ hi), fun ha => (ho.clock (by rw [← hcfg]; exact ha)).2,
        fun m hm => ho.fits m (List.mem_append_right _ hm)⟩
      exact ⟨f2, W2, c2, a1, a2, a3.trans hcfg, fun ha now hf => a4 (by rw [hcfg]; exact ha) now hf.2⟩
    | crash lossy => exact absurd hkeep id

/-- Where a message is after a successful flush. -/
theorem FInv.where (hd : FInv crc base H clock t f W) (hi : TInv t) {now : Nat} (hclock : t.cfg.retention.maxAge ≠ none → clock ≤ now)
    {m : Msg} (hm : m ∈ H) :
    m ∈ (t.step crc (.flush now)).1.log.msgs
      ∨ ((∃ s ∈ (t.step crc (.flush now)).1.disk.segs, m ∈ loadLog crc s.data)
          ∧ coldRead crc (t.step crc (.flush now)).1.disk.segs m.seq 1 = [m])
      ∨ m.seq < (t.step crc (.flush now)).1.disk.headSeq := by
  obtain ⟨c0, p0, h1, _⟩ := hd.disk
  obtain ⟨g1, g2⟩ := h1.flushAll hclock
  have hfull := g1.full g2
  have hlog : (t.step crc (.flush now)).1.log = t.log := by simp only [Topic.step, Topic.flushAll]; split <;> rfl
  have hdisk : (t.step crc (.flush now)).1.disk = t.disk.flushAll now := by simp only [Topic.step, Topic.flushAll]; split <;> rfl
  rw [hlog, hdisk, hfull.headSeq]
  by_cases hf : m.seq < f
  · exact .inr (.inr hf)
  have hnum := hd.num
  have hlow := hd.low
  obtain ⟨i, hi', hmi⟩ := List.getElem_of_mem hm
  have hseq := hnum i m (by rw [List.getElem?_eq_getElem hi', hmi])
  by_cases hr : t.log.ramStart ≤ m.seq
  · left
    obtain ⟨x, hx⟩ := hd.mem
    have hlen := hi.log.len
    have hnext := hd.next
    have hxl := congrArg List.length hx
    rw [List.length_append] at hxl
    have : m = (x ++ t.log.msgs)[i]'(by rw [hx]; exact hi') := by
      rw [← hmi]; congr 1; exact hx.symm
    rw [List.getElem_append_right (by omega)] at this
    rw [this]; exact List.getElem_mem _
  · right; left
    have h1 := hd.ram
    have h2 := hd.headHigh
    obtain ⟨D, qs, d1, d2, d3, d4, _⟩ := hfull.complete hd.fitsW
    have hW : (H.drop (f - base))[m.seq - f]? = some m := by
      rw [List.getElem?_drop, show f - base + (m.seq - f) = i by omega, List.getElem?_eq_getElem hi', hmi]
    have hW' : W[m.seq - f]? = some m := by
      rw [← hd.flow, List.getElem?_append_left (by omega)] at hW; exact hW
    have hT : (W.take D)[m.seq - f]? = some m := by rw [List.getElem?_take, if_pos (by omega)]; exact hW'
    refine ⟨d4.mem (fun x hx => ?_) (d3 ▸ List.mem_of_getElem? hT), ?_⟩
    · rw [d3] at hx; exact hd.fitsW x (List.mem_of_mem_take hx)
    · obtain ⟨D', e1, e2, e3⟩ := hfull.coldRead hd.fitsW hd.numW
      have hT' : (W.take D')[m.seq - f]? = some m := by rw [List.getElem?_take, if_pos (by omega)]; exact hW'
      rw [e3, List.take_one, List.head?_drop, hT']
      rfl

end Verif.Stream
