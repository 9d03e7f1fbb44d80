import Verif.Proofs.StreamCold

/-!
# Invariant of a topic with its files

`H` is everything that is or was in the log from number `base` on.
-/

namespace Verif.Stream

/-- The messages on their way to the storage task. -/
def chanMsgs (c : List SCmd) : List Msg :=
  c.filterMap (fun x => match x with | .append m => some m | _ => none)

theorem chanMsgs_append (a b : List SCmd) : chanMsgs (a ++ b) = chanMsgs a ++ chanMsgs b := List.filterMap_append

structure DInv (crc : Bytes → Nat) (base : Nat) (H : List Msg) (clock : Nat) (t : Topic) (f : Nat) (W : List Msg) : Prop where
  disk : DiskInv crc (t.cfg.retention.maxAge ≠ none) clock f W t.disk t.ctx t.persisted
  flow : W ++ (chanMsgs t.chan ++ t.sends) = H.drop (f - base)
  low : base ≤ f
  high : f ≤ base + H.length
  num : Numbered base H
  fits : ∀ m ∈ H, Fits m
  next : t.log.next = base + H.length
  mem : t.log.msgs <:+ H
  ram : t.log.ramStart ≤ max (t.persisted + 1) t.log.head
  headLow : base ≤ t.log.head
  headHigh : t.log.head ≤ f
  reg : ∀ p, t.evictReg = some p → p ≤ t.persisted
  ret : ∀ h, t.retain = .outcome h → h = f

variable {crc : Bytes → Nat} {base : Nat} {H : List Msg} {clock : Nat} {t : Topic} {f : Nat} {W : List Msg}

theorem Numbered.drop {g : Nat} {a : List Msg} (h : Numbered g a) (k : Nat) : Numbered (g + k) (a.drop k) :=
  WindowOk.drop (ms := a) (rs := g) h k

theorem DInv.numW (h : DInv crc base H clock t f W) : Numbered f W := by
  have := h.num.drop (f - base)
  rw [← h.flow, show base + (f - base) = f by have := h.low; omega] at this
  exact this.append.1

theorem DInv.fitsW (h : DInv crc base H clock t f W) : ∀ m ∈ W, Fits m := by
  intro m hm
  have : m ∈ H.drop (f - base) := by rw [← h.flow]; exact List.mem_append_left _ hm
  exact h.fits m (List.mem_of_mem_drop this)

theorem DInv.lenW (h : DInv crc base H clock t f W) :
    W.length + (chanMsgs t.chan).length + t.sends.length + f = base + H.length := by
  have := congrArg List.length h.flow
  simp only [List.length_append, List.length_drop] at this
  have := h.low; have := h.high
  omega

/-- What requests of consumers leave alone. -/
structure DFrame (t t' : Topic) : Prop where
  log : t'.log = t.log
  disk : t'.disk = t.disk
  ctx : t'.ctx = t.ctx
  sends : t'.sends = t.sends
  retain : t'.retain = t.retain
  cfg : t'.cfg = t.cfg
  persisted : t'.persisted = t.persisted
  reg : t'.evictReg = t.evictReg
  chan : chanMsgs t'.chan = chanMsgs t.chan

theorem DFrame.inv {t' : Topic} (hf : DFrame t t') (h : DInv crc base H clock t f W) : DInv crc base H clock t' f W := by
  obtain ⟨h1, h2, h3, h4, h5, h6, h7, h8, h9⟩ := hf
  exact ⟨by rw [h2, h3, h6, h7]; exact h.disk, by rw [h9, h4]; exact h.flow, h.low, h.high, h.num, h.fits,
    by rw [h1]; exact h.next, by rw [h1]; exact h.mem, by rw [h1, h7]; exact h.ram, by rw [h1]; exact h.headLow,
    by rw [h1]; exact h.headHigh, by rw [h8, h7]; exact h.reg, by rw [h5]; exact h.ret⟩

theorem DFrame.refl (t : Topic) : DFrame t t := ⟨rfl, rfl, rfl, rfl, rfl, rfl, rfl, rfl, rfl⟩

theorem DFrame.trans {a b c : Topic} (h : DFrame a b) (h' : DFrame b c) : DFrame a c :=
  ⟨h'.1.trans h.1, h'.2.trans h.2, h'.3.trans h.3, h'.4.trans h.4, h'.5.trans h.5, h'.6.trans h.6,
    h'.7.trans h.7, h'.8.trans h.8, h'.9.trans h.9⟩

theorem tryFetch_dframe (t : Topic) (g c : Str) (gen l now : Nat) :
    DFrame t (t.tryFetch g c gen l now).1 ∧ (t.tryFetch g c gen l now).1.chan = t.chan := by
  unfold Topic.tryFetch
  split
  · exact ⟨DFrame.refl t, rfl⟩
  · simp only
    split
    · exact ⟨⟨rfl, rfl, rfl, rfl, rfl, rfl, rfl, rfl, rfl⟩, rfl⟩
    · split
      · exact ⟨⟨rfl, rfl, rfl, rfl, rfl, rfl, rfl, rfl, rfl⟩, rfl⟩
      · exact ⟨⟨rfl, rfl, rfl, rfl, rfl, rfl, rfl, rfl, rfl⟩, rfl⟩

theorem attempt_dframe (t : Topic) (id now : Nat) : DFrame t (t.attempt id now).1 := by
  unfold Topic.attempt
  split
  · exact DFrame.refl t
  · next op _ =>
    obtain ⟨h, h2⟩ := tryFetch_dframe t op.group op.consumer op.gen op.limit now
    have he : ∀ (t' : Topic) (id : Nat) op r, DFrame t' (t'.endFetch id op r).1 :=
      fun t' id op r => ⟨rfl, rfl, rfl, rfl, rfl, rfl, rfl, rfl, rfl⟩
    split
    · exact DFrame.refl t
    · split
      · exact h.trans (he _ _ _ _)
      · exact h.trans (he _ _ _ _)
      · refine ⟨h.1, h.2, h.3, h.4, h.5, h.6, h.7, h.8, ?_⟩
        show chanMsgs (t.chan ++ _) = _
        rw [chanMsgs_append]
        simp [chanMsgs]
      · split
        · exact ⟨h.1, h.2, h.3, h.4, h.5, h.6, h.7, h.8, h.9⟩
        · exact h.trans (he _ _ _ _)

theorem finishCold_dframe (t : Topic) (op : FetchOp) (ms : List Msg) (now : Nat) :
    DFrame t (t.finishCold op ms now).1 := by
  unfold Topic.finishCold
  split
  · exact DFrame.refl t
  · simp only
    split
    · exact ⟨rfl, rfl, rfl, rfl, rfl, rfl, rfl, rfl, rfl⟩
    · split <;> exact ⟨rfl, rfl, rfl, rfl, rfl, rfl, rfl, rfl, rfl⟩

theorem dropBinding_dframe (order : Str → List Nat) (t : Topic) (b : Str × Str) :
    DFrame t (Topic.dropBinding order t b) := by
  unfold Topic.dropBinding
  split
  · exact DFrame.refl t
  · split
    · exact DFrame.refl t
    · exact ⟨rfl, rfl, rfl, rfl, rfl, rfl, rfl, rfl, rfl⟩

theorem disconnect_dframe (t : Topic) (conn : Str) (order : Str → List Nat) : DFrame t (t.disconnect conn order) := by
  unfold Topic.disconnect
  split
  · exact DFrame.refl t
  · next bs _ =>
    have : ∀ (bs : List (Str × Str)) (t' : Topic), DFrame t' (bs.foldl (Topic.dropBinding order) t') := by
      intro bs
      induction bs with
      | nil => intro t'; exact DFrame.refl t'
      | cons b bs ih => intro t'; exact (dropBinding_dframe order t' b).trans (ih _)
    have h := this bs { t with clients := mdel t.clients conn }
    exact ⟨h.1, h.2, h.3, h.4, h.5, h.6, h.7, h.8, h.9⟩

/-- The steps that concern the log or the files. -/
def Ev.writes : Ev → Bool
  | .publish _ _ | .send _ | .evictLoad | .evictRun | .retainSend | .retainDone | .storage _ | .flush _ | .leak _ _ _
  | .closeHandle _ _ => true
  | _ => false

theorem step_dframe (t : Topic) (crc : Bytes → Nat) (e : Ev) (he : e.writes = false) : DFrame t (t.step crc e).1 := by
  cases e with
  | publish ts p => cases he
  | send i => cases he
  | evictLoad => cases he
  | evictRun => cases he
  | retainSend => cases he
  | retainDone => cases he
  | storage now => cases he
  | flush now => cases he
  | leak s n now => cases he
  | closeHandle s now => cases he
  | join g conn c => exact ⟨rfl, rfl, rfl, rfl, rfl, rfl, rfl, rfl, rfl⟩
  | leave g c gen order =>
    simp only [Topic.step, Topic.leave]
    split
    · exact DFrame.refl t
    · split
      · exact DFrame.refl t
      · split
        · exact DFrame.refl t
        · exact ⟨rfl, rfl, rfl, rfl, rfl, rfl, rfl, rfl, rfl⟩
  | disconnect conn order => exact disconnect_dframe t conn order
  | fetch g c gen l p =>
    simp only [Topic.step]
    split <;> exact ⟨rfl, rfl, rfl, rfl, rfl, rfl, rfl, rfl, rfl⟩
  | attempt id now => exact attempt_dframe t id now
  | giveUp id =>
    simp only [Topic.step]
    split
    · exact DFrame.refl t
    · split
      · exact ⟨rfl, rfl, rfl, rfl, rfl, rfl, rfl, rfl, rfl⟩
      · exact DFrame.refl t
  | finish id now =>
    simp only [Topic.step]
    split
    · exact DFrame.refl t
    · split
      · have h := finishCold_dframe t ‹_› ‹_› now
        exact ⟨h.1, h.2, h.3, h.4, h.5, h.6, h.7, h.8, h.9⟩
      · exact DFrame.refl t
  | abort id => exact ⟨rfl, rfl, rfl, rfl, rfl, rfl, rfl, rfl, rfl⟩
  | ack g c gen s =>
    simp only [Topic.step, Topic.ack]
    split
    · exact DFrame.refl t
    · split <;> exact ⟨rfl, rfl, rfl, rfl, rfl, rfl, rfl, rfl, rfl⟩
  | seek g e => exact ⟨rfl, rfl, rfl, rfl, rfl, rfl, rfl, rfl, rfl⟩
  | tick now order => exact ⟨rfl, rfl, rfl, rfl, rfl, rfl, rfl, rfl, rfl⟩
  | save order =>
    simp only [Topic.step, Topic.saveGroups]
    split
    · refine ⟨rfl, rfl, rfl, rfl, rfl, rfl, rfl, rfl, ?_⟩
      show chanMsgs (t.chan ++ _) = _
      rw [chanMsgs_append]; simp [chanMsgs]
    · exact DFrame.refl t
  | read f l =>
    simp only [Topic.step, Topic.startRead]
    split
    · refine ⟨rfl, rfl, rfl, rfl, rfl, rfl, rfl, rfl, ?_⟩
      show chanMsgs (t.chan ++ _) = _
      rw [chanMsgs_append]; simp [chanMsgs]
    · exact ⟨rfl, rfl, rfl, rfl, rfl, rfl, rfl, rfl, rfl⟩
  | readDone id =>
    simp only [Topic.step]
    split
    · exact ⟨rfl, rfl, rfl, rfl, rfl, rfl, rfl, rfl, rfl⟩
    · exact DFrame.refl t

/-! ### The other steps -/

theorem applyHead_ram {l : Log} (hl : LInv l) {h : Nat} (hh : h ≤ l.next) :
    (l.applyHead h).ramStart = max l.ramStart (max h 1) ∧ (l.applyHead h).msgs = l.msgs.drop (max h 1 - l.ramStart) := by
  have h2 := hl.applyHead h hh
  have hd : (l.applyHead h).msgs = l.msgs.drop (max h 1 - l.ramStart) := by
    simp only [Log.applyHead, dropWhile_spec (max h 1) l.msgs l.ramStart hl.win]
  refine ⟨?_, hd⟩
  have hlen := h2.len
  rw [hd, List.length_drop] at hlen
  have hnext : (l.applyHead h).next = l.next := rfl
  rw [hnext] at hlen
  have := hl.len
  have := hl.head1
  have := hl.headNext
  omega

theorem suffix_drop {α : Type} {a b : List α} (h : a <:+ b) (k : Nat) : a.drop k <:+ b :=
  (List.drop_suffix k a).trans h

theorem DInv.step (hd : DInv crc base H clock t f W) (hi : TInv t) (e : Ev) (horder : ∀ i, e = .send i → i = 0)
    (hclock : t.cfg.retention.maxAge ≠ none → clock ≤ e.time.getD clock)
    (hfits : ∀ m ∈ published t.log.next [e], Fits m) :
    ∃ f' W', (f ≤ f' ∧ ((∀ now cs, e = .storage now → t.chan ≠ .retention :: cs) → f' = f))
      ∧ t.persisted ≤ (t.step crc e).1.persisted
      ∧ DInv crc base (H ++ published t.log.next [e]) (e.time.getD clock) (t.step crc e).1 f' W' := by
  have hmono : ∀ (e : Ev), e.writes = false → e.time = none ∧ published t.log.next [e] = [] := by
    intro e he
    cases e <;> first | (exact ⟨rfl, rfl⟩) | (cases he)
  by_cases hw : e.writes = false
  · obtain ⟨h1, h2⟩ := hmono e hw
    have hf := step_dframe t crc e hw
    refine ⟨f, W, ⟨Nat.le_refl _, fun _ => rfl⟩, Nat.le_of_eq hf.persisted.symm, ?_⟩
    rw [h1, h2, List.append_nil]
    exact hf.inv hd
  cases e with
  | publish ts p =>
    refine ⟨f, W, ⟨Nat.le_refl _, fun _ => rfl⟩, Nat.le_refl _, ?_⟩
    have hl := hi.log
    have hrs : (if t.log.msgs.isEmpty then t.log.next else t.log.ramStart) = t.log.ramStart := by
      split
      · next he =>
        have := hl.len
        rw [List.isEmpty_iff.1 he] at this
        simpa using this.symm
      · rfl
    have hlen := hd.lenW
    simp only [Topic.step, Log.append, published, Ev.time, Option.getD_none, hrs]
    refine ⟨hd.disk, ?_, hd.low, ?_, ?_, ?_, ?_, ?_, hd.ram, hd.headLow, hd.headHigh, hd.reg, hd.ret⟩
    · rw [List.drop_append_of_le_length (by have := hd.high; omega), ← hd.flow]
      simp
    · have := hd.high
      simp only [List.length_append, List.length_singleton]; omega
    · exact WindowOk.snoc (ms := H) (rs := base) hd.num (by simp only; exact hd.next)
    · intro m hm
      rcases List.mem_append.1 hm with hm | hm
      · exact hd.fits m hm
      · exact hfits m (by simpa [published] using hm)
    · simp only [List.length_append, List.length_singleton, hd.next]; omega
    · obtain ⟨x, hx⟩ := hd.mem
      exact ⟨x, by rw [← List.append_assoc, hx]⟩
  | send i =>
    have hi0 := horder i rfl
    subst hi0
    refine ⟨f, W, ⟨Nat.le_refl _, fun _ => rfl⟩, ?_, ?_⟩ <;> simp only [Topic.step, published, Ev.time, Option.getD_none, List.append_nil]
    · split <;> exact Nat.le_refl _
    · split
      · exact hd
      · next m hm =>
        refine ⟨hd.disk, ?_, hd.low, hd.high, hd.num, hd.fits, hd.next, hd.mem, hd.ram, hd.headLow, hd.headHigh, hd.reg, hd.ret⟩
        rw [← hd.flow]
        cases hs : t.sends with
        | nil => rw [hs] at hm; cases hm
        | cons x xs =>
          rw [hs] at hm
          simp only [List.getElem?_cons_zero, Option.some.injEq] at hm
          simp only [chanMsgs_append, List.eraseIdx_cons_zero]
          simp [chanMsgs, hm]
  | evictLoad =>
    refine ⟨f, W, ⟨Nat.le_refl _, fun _ => rfl⟩, Nat.le_refl _, ?_⟩
    simp only [Topic.step, published, Ev.time, Option.getD_none, List.append_nil]
    exact ⟨hd.disk, hd.flow, hd.low, hd.high, hd.num, hd.fits, hd.next, hd.mem, hd.ram, hd.headLow, hd.headHigh,
      fun p hp => by cases hp; exact Nat.le_refl _, hd.ret⟩
  | evictRun =>
    refine ⟨f, W, ⟨Nat.le_refl _, fun _ => rfl⟩, ?_, ?_⟩ <;> simp only [Topic.step, published, Ev.time, Option.getD_none, List.append_nil]
    · split <;> exact Nat.le_refl _
    · split
      · exact hd
      · next p hp =>
        have hle := hd.reg p hp
        obtain ⟨k, a, b, c⟩ := evictLoop_spec (soft := t.log.softLimit) (p := p) t.log.msgs t.log.ramStart hi.log.win hi.log.low
        refine ⟨hd.disk, hd.flow, hd.low, hd.high, hd.num, hd.fits, hd.next, ?_, ?_, hd.headLow, hd.headHigh,
          fun p hp => (by cases hp), hd.ret⟩
        · simp only [Log.evict, b]; exact suffix_drop hd.mem k
        · simp only [Log.evict, b]
          have hram := hd.ram
          cases k with
          | zero => omega
          | succ k =>
            have hlt : k < t.log.msgs.length := by omega
            have hmem : t.log.msgs[k] ∈ t.log.msgs.take (k + 1) := by
              rw [List.mem_take_iff_getElem]
              exact ⟨k, by omega, rfl⟩
            have h1 := c _ hmem
            have h2 := hi.log.win k _ (List.getElem?_eq_getElem hlt)
            omega
  | retainSend =>
    refine ⟨f, W, ⟨Nat.le_refl _, fun _ => rfl⟩, ?_, ?_⟩ <;> simp only [Topic.step, published, Ev.time, Option.getD_none, List.append_nil]
    · split <;> exact Nat.le_refl _
    · split
      · refine ⟨hd.disk, ?_, hd.low, hd.high, hd.num, hd.fits, hd.next, hd.mem, hd.ram, hd.headLow, hd.headHigh, hd.reg,
          fun h hh => by cases hh⟩
        simp only [chanMsgs_append]
        have := hd.flow
        simpa [chanMsgs] using this
      · exact hd
  | retainDone =>
    refine ⟨f, W, ⟨Nat.le_refl _, fun _ => rfl⟩, ?_, ?_⟩ <;> simp only [Topic.step, published, Ev.time, Option.getD_none, List.append_nil]
    · split
      · unfold Topic.applyOutcome; split <;> exact Nat.le_refl _
      · exact Nat.le_refl _
    · split
      · next hd' hr =>
        have hh := hd.ret hd' hr
        subst hh
        have hb1 := hi.log.head1
        have hfn : hd' ≤ t.log.next := by rw [hd.next]; exact hd.high
        have hhh := hd.headHigh
        unfold Topic.applyOutcome
        split
        · obtain ⟨h1, h2⟩ := applyHead_ram hi.log hfn
          have hhead : (t.log.applyHead hd').head = max hd' 1 := rfl
          refine ⟨hd.disk, hd.flow, hd.low, hd.high, hd.num, hd.fits, hd.next, ?_, ?_, ?_, ?_, hd.reg, fun h hh => by cases hh⟩
          · show (t.log.applyHead hd').msgs <:+ H
            rw [h2]; exact suffix_drop hd.mem _
          · show (t.log.applyHead hd').ramStart ≤ max (t.persisted + 1) (t.log.applyHead hd').head
            rw [h1, hhead]
            have := hd.ram
            omega
          · show base ≤ (t.log.applyHead hd').head
            rw [hhead]; have := hd.low; omega
          · show (t.log.applyHead hd').head ≤ hd'
            rw [hhead]; omega
        · exact ⟨hd.disk, hd.flow, hd.low, hd.high, hd.num, hd.fits, hd.next, hd.mem, hd.ram, hd.headLow, hd.headHigh, hd.reg,
            fun h hh => by cases hh⟩
      · exact hd
  | storage now =>
    have hclock : t.cfg.retention.maxAge ≠ none → clock ≤ now := hclock
    simp only [Topic.step, published, Ev.time, Option.getD_some, List.append_nil]
    split
    · exact ⟨f, W, ⟨Nat.le_refl _, fun _ => rfl⟩, Nat.le_refl _, ⟨hd.disk.mono hclock, hd.flow, hd.low, hd.high, hd.num, hd.fits, hd.next,
        hd.mem, hd.ram, hd.headLow, hd.headHigh, hd.reg, hd.ret⟩⟩
    · next c cs hc =>
      have hflow := hd.flow
      rw [hc] at hflow
      have other : ∀ (t' : Topic), t'.log = t.log → t'.disk.segs = t.disk.segs → t'.disk.writers = t.disk.writers →
          t'.ctx = t.ctx → t'.sends = t.sends → t'.retain = t.retain → t'.cfg = t.cfg → t'.persisted = t.persisted →
          t'.evictReg = t.evictReg → t'.chan = cs → chanMsgs (c :: cs) = chanMsgs cs →
          ∃ f' W', (f ≤ f' ∧ ((∀ now' cs', Ev.storage now = .storage now' → t.chan ≠ .retention :: cs') → f' = f))
            ∧ t.persisted ≤ t'.persisted ∧ DInv crc base H now t' f' W' := by
        intro t' h1 h2 h2' h3 h4 h5 h6 h7 h8 h9 h10
        refine ⟨f, W, ⟨Nat.le_refl _, fun _ => rfl⟩, Nat.le_of_eq h7.symm, ⟨?_, ?_, hd.low, hd.high, hd.num, hd.fits,
          by rw [h1]; exact hd.next, by rw [h1]; exact hd.mem, by rw [h1, h7]; exact hd.ram, by rw [h1]; exact hd.headLow,
          by rw [h1]; exact hd.headHigh, by rw [h8, h7]; exact hd.reg, by rw [h5]; exact hd.ret⟩⟩
        · rw [h3, h6, h7]
          cases hd.disk.mono hclock with
          | empty a1 a2 a3 a4 a5 a6 => exact .empty (h2.trans a1) (h2'.trans a2) a3 a4 a5 a6
          | files pre l pp p buf a1 a2 a3 a4 a5 a6 a7 a8 =>
            exact .files pre l pp p buf (h2.trans a1) a2 a3 (by rw [h2']; exact a4) a5 a6 a7 a8
        · rw [h9, h4]
          rw [h10] at hflow
          exact hflow
      cases c with
      | append m =>
        have e1 : chanMsgs (SCmd.append m :: cs) = m :: chanMsgs cs := by simp [chanMsgs]
        rw [e1] at hflow
        have hm : m.seq = f + W.length := by
          have := hd.num.drop (f - base)
          rw [← hflow, show base + (f - base) = f by have := hd.low; omega] at this
          have := this.append.2 0 m (by simp)
          omega
        refine ⟨f, W ++ [m], ⟨Nat.le_refl _, fun _ => rfl⟩, Nat.le_refl _, ⟨hd.disk.append t.cfg.maxSegment m hm hclock, ?_, hd.low, hd.high,
          hd.num, hd.fits, hd.next, hd.mem, hd.ram, hd.headLow, hd.headHigh, hd.reg, hd.ret⟩⟩
        rw [← hflow]; simp [Topic.handle]
      | cold id fr l => exact other _ rfl rfl rfl rfl rfl rfl rfl rfl rfl rfl (by simp [chanMsgs])
      | coldRead id fr l => exact other _ rfl rfl rfl rfl rfl rfl rfl rfl rfl rfl (by simp [chanMsgs])
      | save gs => exact other _ rfl rfl rfl rfl rfl rfl rfl rfl rfl rfl (by simp [chanMsgs])
      | retention =>
        have e1 : chanMsgs (SCmd.retention :: cs) = chanMsgs cs := by simp [chanMsgs]
        rw [e1] at hflow
        obtain ⟨f', k, h1, h2, h3, h4⟩ := hd.disk.retain t.cfg.retention hclock id
        have hlow := hd.low; have hhigh := hd.high; have hlen := hd.lenW; have hhh := hd.headHigh
        refine ⟨f', W.drop k, ⟨by omega, fun h => absurd hc (h now cs rfl)⟩, Nat.le_refl _, ⟨h4, ?_, by omega, by omega, hd.num, hd.fits, hd.next, hd.mem, hd.ram,
          hd.headLow, ?_, hd.reg, ?_⟩⟩
        · have : H.drop (f' - base) = (H.drop (f - base)).drop k := by rw [List.drop_drop]; congr 1; omega
          rw [this, ← hflow, List.drop_append_of_le_length h2]
          rfl
        · show t.log.head ≤ f'; omega
        · intro h hh
          simp only [Topic.handle, RetPhase.outcome.injEq] at hh
          rw [← hh]; exact h3
  | flush now =>
    have hclock : t.cfg.retention.maxAge ≠ none → clock ≤ now := hclock
    obtain ⟨h1, h2⟩ := hd.disk.flushAll hclock
    simp only [Topic.step, published, Ev.time, Option.getD_some, List.append_nil, Topic.flushAll]
    cases hctx : t.ctx with
    | none =>
      refine ⟨f, W, ⟨Nat.le_refl _, fun _ => rfl⟩, Nat.le_refl _, ⟨?_, hd.flow, hd.low, hd.high, hd.num, hd.fits, hd.next,
        hd.mem, hd.ram, hd.headLow, hd.headHigh, hd.reg, hd.ret⟩⟩
      rw [hctx] at h1
      exact h1
    | some c =>
      obtain ⟨g1, g2⟩ := h1.flushed h2
      have hle := g2 c hctx
      refine ⟨f, W, ⟨Nat.le_refl _, fun _ => rfl⟩, hle, ⟨g1 c hctx, hd.flow, hd.low, hd.high, hd.num, hd.fits, hd.next,
        hd.mem, ?_, hd.headLow, hd.headHigh, fun p hp => Nat.le_trans (hd.reg p hp) hle, hd.ret⟩⟩
      have := hd.ram
      simp only
      omega
  | leak s n now =>
    have hclock : t.cfg.retention.maxAge ≠ none → clock ≤ now := hclock
    refine ⟨f, W, ⟨Nat.le_refl _, fun _ => rfl⟩, Nat.le_refl _, ?_⟩
    simp only [Topic.step, published, Ev.time, Option.getD_some, List.append_nil]
    exact ⟨hd.disk.leak s n hclock, hd.flow, hd.low, hd.high, hd.num, hd.fits, hd.next,
        hd.mem, hd.ram, hd.headLow, hd.headHigh, hd.reg, hd.ret⟩
  | closeHandle s now =>
    have hclock : t.cfg.retention.maxAge ≠ none → clock ≤ now := hclock
    refine ⟨f, W, ⟨Nat.le_refl _, fun _ => rfl⟩, Nat.le_refl _, ?_⟩
    simp only [Topic.step, published, Ev.time, Option.getD_some, List.append_nil]
    exact ⟨hd.disk.close s hclock, hd.flow, hd.low, hd.high, hd.num, hd.fits, hd.next,
        hd.mem, hd.ram, hd.headLow, hd.headHigh, hd.reg, hd.ret⟩
  | _ => exact absurd rfl hw

end Verif.Stream
