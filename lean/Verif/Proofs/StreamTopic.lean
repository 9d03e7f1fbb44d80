import Verif.Proofs.StreamGroup

/-!
# Invariant of a topic and its relation to the observer of a group
-/

namespace Verif.Stream

open Group

/-! ### The log in memory -/

/-- The messages in memory are the last ones published, with consecutive numbers. -/
structure LInv (l : Log) : Prop where
  head1 : 1 ≤ l.head
  headNext : l.head ≤ l.next
  win : WindowOk l.msgs l.ramStart
  len : l.ramStart + l.msgs.length = l.next
  low : ∀ m ∈ l.msgs, l.head ≤ m.seq

theorem WindowOk.tail {m : Msg} {ms : List Msg} {rs : Nat} (h : WindowOk (m :: ms) rs) :
    m.seq = rs ∧ WindowOk ms (rs + 1) := by
  refine ⟨by simpa using h 0 m rfl, fun i x hx => ?_⟩
  have := h (i + 1) x (by simpa using hx)
  omega

theorem WindowOk.nil (rs : Nat) : WindowOk [] rs := fun i m h => by simp at h

theorem WindowOk.snoc {ms : List Msg} {rs : Nat} (h : WindowOk ms rs) {m : Msg} (hm : m.seq = rs + ms.length) :
    WindowOk (ms ++ [m]) rs := by
  intro i x hx
  rw [List.getElem?_append] at hx
  split at hx
  · exact h i x hx
  · next hi =>
    have : i - ms.length = 0 := by
      cases hh : i - ms.length with
      | zero => rfl
      | succ n => rw [hh] at hx; simp at hx
    rw [this] at hx
    simp at hx
    subst hx
    omega

theorem LInv.append {l : Log} (h : LInv l) (ts : Nat) (p : Bytes) : LInv (l.append ts p).1 := by
  have hrs : (if l.msgs.isEmpty then l.next else l.ramStart) = l.ramStart := by
    split
    · next he =>
      have := h.len
      rw [List.isEmpty_iff.1 he] at this
      simpa using this.symm
    · rfl
  have := h.len
  refine ⟨h.head1, by simp only [Log.append]; have := h.headNext; omega, ?_, ?_, ?_⟩
  · simp only [Log.append, hrs]
    exact h.win.snoc (by simp only; omega)
  · simp only [Log.append, hrs, List.length_append, List.length_singleton]; omega
  · intro m hm
    simp only [Log.append, List.mem_append, List.mem_singleton] at hm ⊢
    rcases hm with hm | hm
    · exact h.low m hm
    · rw [hm]; exact h.headNext

theorem evictLoop_spec {soft p head : Nat} (ms : List Msg) (rs : Nat) (hw : WindowOk ms rs) (hl : ∀ m ∈ ms, head ≤ m.seq) :
    ∃ k, k ≤ ms.length ∧ (Log.evictLoop soft p head ms rs) = (ms.drop k, rs + k)
      ∧ ∀ m ∈ ms.take k, m.seq ≤ p := by
  induction ms generalizing rs with
  | nil => exact ⟨0, by simp, by simp [Log.evictLoop], by simp⟩
  | cons m t ih =>
    unfold Log.evictLoop
    obtain ⟨h1, h2⟩ := hw.tail
    have hm := hl m (by simp)
    split
    · split
      · next hp =>
        have : max (m.seq + 1) head = rs + 1 := by omega
        rw [this]
        obtain ⟨k, a, b, c⟩ := ih (rs + 1) h2 (fun x hx => hl x (by simp [hx]))
        refine ⟨k + 1, by simp only [List.length_cons]; omega, ?_, ?_⟩
        · rw [b]; simp only [List.drop_succ_cons]; congr 1; omega
        · intro x hx
          simp only [List.take_succ_cons, List.mem_cons] at hx
          rcases hx with hx | hx
          · rw [hx]; exact hp
          · exact c x hx
      · exact ⟨0, by simp, by simp, by simp⟩
    · exact ⟨0, by simp, by simp, by simp⟩

theorem WindowOk.drop {ms : List Msg} {rs : Nat} (h : WindowOk ms rs) (k : Nat) : WindowOk (ms.drop k) (rs + k) := by
  intro i m hm
  rw [List.getElem?_drop] at hm
  have := h _ _ hm
  omega

theorem LInv.evict {l : Log} (h : LInv l) (p : Nat) : LInv (l.evict p) := by
  obtain ⟨k, a, b, _⟩ := evictLoop_spec (soft := l.softLimit) (p := p) l.msgs l.ramStart h.win h.low
  have := h.len
  refine ⟨h.head1, h.headNext, ?_, ?_, ?_⟩
  · simp only [Log.evict, b]; exact h.win.drop k
  · simp only [Log.evict, b, List.length_drop]; omega
  · intro m hm
    simp only [Log.evict, b] at hm
    exact h.low m (List.mem_of_mem_drop hm)

theorem WindowOk.mem {ms : List Msg} {rs : Nat} (h : WindowOk ms rs) {m : Msg} (hm : m ∈ ms) :
    rs ≤ m.seq ∧ m.seq < rs + ms.length := by
  obtain ⟨i, hi⟩ := List.getElem?_of_mem hm
  have := h i m hi
  have := (List.getElem?_eq_some_iff.1 hi).1
  omega

theorem dropWhile_spec (h : Nat) (ms : List Msg) (rs : Nat) (hw : WindowOk ms rs) :
    ms.dropWhile (fun m => decide (m.seq < h)) = ms.drop (h - rs) := by
  induction ms generalizing rs with
  | nil => simp
  | cons m t ih =>
    obtain ⟨h1, h2⟩ := hw.tail
    by_cases hm : m.seq < h
    · rw [List.dropWhile_cons_of_pos (by simpa using hm), ih (rs + 1) h2]
      have : h - rs = (h - (rs + 1)) + 1 := by omega
      rw [this, List.drop_succ_cons]
    · rw [List.dropWhile_cons_of_neg (by simpa using hm)]
      have : h - rs = 0 := by omega
      rw [this, List.drop_zero]

theorem LInv.applyHead {l : Log} (hl : LInv l) (h : Nat) (hh : h ≤ l.next) : LInv (l.applyHead h) := by
  have hd := dropWhile_spec (max h 1) l.msgs l.ramStart hl.win
  have hlen := hl.len
  have hw := hl.win.drop (max h 1 - l.ramStart)
  have hn := hl.headNext
  have h1 := hl.head1
  have hrs : ((l.msgs.drop (max h 1 - l.ramStart)).head?.map (·.seq)).getD (max l.next (max h 1))
      = min (l.ramStart + (max h 1 - l.ramStart)) l.next := by
    cases hc : l.msgs.drop (max h 1 - l.ramStart) with
    | nil =>
      have := List.drop_eq_nil_iff.1 hc
      simp only [List.head?_nil, Option.map_none, Option.getD_none]
      omega
    | cons m t =>
      rw [hc] at hw
      have := hw.tail.1
      have hlt : max h 1 - l.ramStart < l.msgs.length := by
        rcases Nat.lt_or_ge (max h 1 - l.ramStart) l.msgs.length with hh | hh
        · exact hh
        · rw [List.drop_eq_nil_of_le hh] at hc; cases hc
      simp only [List.head?_cons, Option.map_some, Option.getD_some]
      omega
  refine ⟨by simp only [Log.applyHead]; omega, by simp only [Log.applyHead]; omega, ?_, ?_, ?_⟩
  · simp only [Log.applyHead, hd, hrs]
    rcases Nat.lt_or_ge (max h 1 - l.ramStart) l.msgs.length with hh | hh
    · have : min (l.ramStart + (max h 1 - l.ramStart)) l.next = l.ramStart + (max h 1 - l.ramStart) := by omega
      rw [this]; exact hw
    · rw [List.drop_eq_nil_of_le hh]; exact WindowOk.nil _
  · simp only [Log.applyHead, hd, hrs, List.length_drop]
    omega
  · intro m hm
    simp only [Log.applyHead, hd] at hm ⊢
    have := hw.mem hm
    omega

/-! ### The topic -/

/-- Nothing in the files, in the channel or in progress is numbered beyond what has been published. -/
structure TInv (t : Topic) : Prop where
  log : LInv t.log
  segs : ∀ s ∈ t.disk.segs, s.start ≤ t.log.next
  ctx : ∀ c, t.ctx = some c → c.active ≤ t.log.next
  chan : ∀ m, SCmd.append m ∈ t.chan → m.seq < t.log.next
  sends : ∀ m ∈ t.sends, m.seq < t.log.next
  retain : ∀ h, t.retain = .outcome h → h ≤ t.log.next

theorem mem_insertSeg {s x : Seg} {l : List Seg} (h : x ∈ insertSeg s l) : x = s ∨ x ∈ l := by
  induction l with
  | nil => simpa [insertSeg] using h
  | cons t ts ih =>
    unfold insertSeg at h
    split at h
    · simpa using h
    · split at h
      · exact .inr h
      · rcases List.mem_cons.1 h with h | h
        · exact .inr (by simp [h])
        · rcases ih h with h | h
          · exact .inl h
          · exact .inr (by simp [h])

theorem mem_writeSeg {start : Nat} {b : Bytes} {now : Nat} {x : Seg} {l : List Seg} (h : x ∈ writeSeg start b now l) :
    ∃ y ∈ l, y.start = x.start := by
  simp only [writeSeg, List.mem_map] at h
  obtain ⟨y, hy, e⟩ := h
  refine ⟨y, hy, ?_⟩
  split at e <;> rw [← e]

theorem leak_starts {d : Disk} {start n now : Nat} {x : Seg} (h : x ∈ (d.leak start n now).segs) :
    ∃ y ∈ d.segs, y.start = x.start := by
  unfold Disk.leak at h
  split at h
  · exact ⟨x, h, rfl⟩
  · exact ⟨x, h, rfl⟩
  · exact mem_writeSeg h

theorem flush_starts {d : Disk} {start now : Nat} {x : Seg} (h : x ∈ (d.flush start now).segs) :
    ∃ y ∈ d.segs, y.start = x.start := by
  unfold Disk.flush at h
  split at h
  · exact ⟨x, h, rfl⟩
  · exact leak_starts h

theorem close_starts {d : Disk} {start now : Nat} {x : Seg} (h : x ∈ (d.close start now).segs) :
    ∃ y ∈ d.segs, y.start = x.start := flush_starts h

theorem flushAll_starts {d : Disk} {now : Nat} {x : Seg} (h : x ∈ (d.flushAll now).segs) :
    ∃ y ∈ d.segs, y.start = x.start := by
  unfold Disk.flushAll at h
  generalize mkeys d.writers = L at h
  induction L generalizing d with
  | nil => exact ⟨x, h, rfl⟩
  | cons s L ih =>
    simp only [List.foldl_cons] at h
    obtain ⟨y, hy, e⟩ := ih h
    obtain ⟨z, hz, e'⟩ := flush_starts hy
    exact ⟨z, hz, e'.trans e⟩

theorem openWriter_starts {d : Disk} {start now : Nat} {x : Seg} (h : x ∈ (d.openWriter start now).segs) :
    x.start = start ∨ x ∈ d.segs := by
  unfold Disk.openWriter at h
  split at h
  · exact .inr h
  · rcases mem_insertSeg h with h | h
    · exact .inl (by rw [h])
    · exact .inr h

theorem sizeKeep_sub {mb : Nat} (segs : List Seg) (t : Nat) {x : Seg} (h : x ∈ sizeKeep mb t segs) : x ∈ segs := by
  induction segs generalizing t with
  | nil => simp [sizeKeep] at h
  | cons s r ih =>
    unfold sizeKeep at h
    split at h
    · exact List.mem_cons_of_mem _ (ih _ h)
    · exact h

theorem retainSegs_sub {r : Retention} {now : Nat} {segs : List Seg} {x : Seg} (h : x ∈ retainSegs r now segs) :
    x ∈ segs := by
  unfold retainSegs at h
  split at h
  · exact h
  · have haged : ∀ {y}, y ∈ (match r.maxAge with | none => segs | some a => ageKeep a now segs) → y ∈ segs := by
      intro y hy
      split at hy
      · exact hy
      · exact (List.mem_filter.1 hy).1
    simp only at h
    split at h
    · exact haged h
    · exact haged (sizeKeep_sub _ _ h)

theorem TInv.headSeq {n : Nat} {d : Disk} (h : ∀ s ∈ d.segs, s.start ≤ n) (h1 : 1 ≤ n) : d.headSeq ≤ n := by
  unfold Disk.headSeq
  cases hs : d.segs with
  | nil => simpa using h1
  | cons s t => simp only [List.head?_cons, Option.map_some, Option.getD_some]; exact h s (by simp [hs])

theorem TInv.next1 {t : Topic} (h : TInv t) : 1 ≤ t.log.next := by
  have := h.log.head1
  have := h.log.headNext
  omega

theorem TInv.handle {t : Topic} (h : TInv t) (crc : Bytes → Nat) (c : SCmd) (now : Nat)
    (hc : ∀ m, c = .append m → m.seq < t.log.next) :
    TInv (t.handle crc c now) ∧ (t.handle crc c now).log = t.log ∧ (t.handle crc c now).groups = t.groups
      ∧ (t.handle crc c now).clients = t.clients ∧ (t.handle crc c now).cfg = t.cfg := by
  have hn := h.next1
  cases c with
  | append m =>
    have hm := hc m rfl
    have hact : (t.ctx.getD (Ctx.open t.disk)).active ≤ t.log.next := by
      cases hctx : t.ctx with
      | some c => exact h.ctx c hctx
      | none =>
        simp only [Option.getD_none, Ctx.open]
        split
        · next s hs => exact h.segs s (List.mem_of_getLast? hs)
        · exact hn
    refine ⟨⟨h.log, ?_, ?_, h.chan, h.sends, h.retain⟩, rfl, rfl, rfl, rfl⟩
    · intro s hs
      simp only [Topic.handle, appendTo] at hs ⊢
      split at hs
      · rcases openWriter_starts (d := Disk.close _ _ _) hs with hs | hs
        · omega
        · obtain ⟨y, hy, e⟩ := close_starts hs
          rw [← e]; exact h.segs y hy
      · rcases openWriter_starts hs with hs | hs
        · omega
        · exact h.segs s hs
    · intro c hcc
      simp only [Topic.handle, appendTo, Option.some.injEq] at hcc ⊢
      split at hcc <;> rw [← hcc] <;> simp only
      · omega
      · exact hact
  | cold id f l => exact ⟨⟨h.log, h.segs, h.ctx, h.chan, h.sends, h.retain⟩, rfl, rfl, rfl, rfl⟩
  | coldRead id f l => exact ⟨⟨h.log, h.segs, h.ctx, h.chan, h.sends, h.retain⟩, rfl, rfl, rfl, rfl⟩
  | save gs => exact ⟨⟨h.log, h.segs, h.ctx, h.chan, h.sends, h.retain⟩, rfl, rfl, rfl, rfl⟩
  | retention =>
    have hseg : ∀ s ∈ (t.disk.retain t.cfg.retention now).segs, s.start ≤ t.log.next :=
      fun s hs => h.segs s (retainSegs_sub hs)
    refine ⟨⟨h.log, hseg, h.ctx, h.chan, h.sends, ?_⟩, rfl, rfl, rfl, rfl⟩
    intro hd hh
    simp only [Topic.handle, RetPhase.outcome.injEq] at hh ⊢
    rw [← hh]
    exact TInv.headSeq hseg hn

/-- A step that leaves the log, the files, the context, the channel, the sends and the retention task alone. -/
theorem TInv.frame {t t' : Topic} (h : TInv t) (h1 : t'.log = t.log) (h2 : t'.disk = t.disk) (h3 : t'.ctx = t.ctx)
    (h4 : ∀ m, SCmd.append m ∈ t'.chan → SCmd.append m ∈ t.chan) (h5 : t'.sends = t.sends)
    (h6 : t'.retain = t.retain) : TInv t' :=
  ⟨h1 ▸ h.log, by rw [h1, h2]; exact h.segs, by rw [h1, h3]; exact h.ctx,
    fun m hm => by rw [h1]; exact h.chan m (h4 m hm), by rw [h1, h5]; exact h.sends, by rw [h1, h6]; exact h.retain⟩

/-- The parts of the state that requests of consumers do not touch. -/
structure Frame (t t' : Topic) : Prop where
  log : t'.log = t.log
  disk : t'.disk = t.disk
  ctx : t'.ctx = t.ctx
  sends : t'.sends = t.sends
  retain : t'.retain = t.retain
  cfg : t'.cfg = t.cfg
  chan : ∀ m, SCmd.append m ∈ t'.chan → SCmd.append m ∈ t.chan

theorem Frame.inv {t t' : Topic} (hf : Frame t t') (h : TInv t) : TInv t' :=
  h.frame hf.log hf.disk hf.ctx hf.chan hf.sends hf.retain

theorem Frame.refl (t : Topic) : Frame t t := ⟨rfl, rfl, rfl, rfl, rfl, rfl, fun _ h => h⟩

theorem Frame.trans {a b c : Topic} (h : Frame a b) (h' : Frame b c) : Frame a c :=
  ⟨h'.1.trans h.1, h'.2.trans h.2, h'.3.trans h.3, h'.4.trans h.4, h'.5.trans h.5, h'.6.trans h.6,
    fun m hm => h.7 m (h'.7 m hm)⟩

theorem tryFetch_frame (t : Topic) (g c : Str) (gen l now : Nat) :
    Frame t (t.tryFetch g c gen l now).1 ∧ (t.tryFetch g c gen l now).1.chan = t.chan
      ∧ (t.tryFetch g c gen l now).1.clients = t.clients ∧ (t.tryFetch g c gen l now).1.fetches = t.fetches := by
  unfold Topic.tryFetch
  split
  · exact ⟨Frame.refl t, rfl, rfl, rfl⟩
  · simp only
    split
    · exact ⟨⟨rfl, rfl, rfl, rfl, rfl, rfl, fun _ h => h⟩, rfl, rfl, rfl⟩
    · split
      · exact ⟨⟨rfl, rfl, rfl, rfl, rfl, rfl, fun _ h => h⟩, rfl, rfl, rfl⟩
      · exact ⟨⟨rfl, rfl, rfl, rfl, rfl, rfl, fun _ h => h⟩, rfl, rfl, rfl⟩

theorem attempt_frame (t : Topic) (id now : Nat) :
    Frame t (t.attempt id now).1 ∧ (t.attempt id now).1.clients = t.clients := by
  unfold Topic.attempt
  split
  · exact ⟨Frame.refl t, rfl⟩
  · next op _ =>
    obtain ⟨h, h2, h3, h4⟩ := tryFetch_frame t op.group op.consumer op.gen op.limit now
    have he : ∀ (t' : Topic) (id : Nat) op r, Frame t' (t'.endFetch id op r).1 ∧ (t'.endFetch id op r).1.clients = t'.clients :=
      fun t' id op r => ⟨⟨rfl, rfl, rfl, rfl, rfl, rfl, fun _ h => h⟩, rfl⟩
    split
    · exact ⟨Frame.refl t, rfl⟩
    · split
      · exact ⟨h.trans (he _ _ _ _).1, h3⟩
      · exact ⟨h.trans (he _ _ _ _).1, h3⟩
      · refine ⟨⟨h.log, h.disk, h.ctx, h.sends, h.retain, h.cfg, fun m hm => ?_⟩, h3⟩
        simpa using hm
      · split
        · exact ⟨⟨h.log, h.disk, h.ctx, h.sends, h.retain, h.cfg, fun m hm => h.chan m hm⟩, h3⟩
        · exact ⟨h.trans (he _ _ _ _).1, h3⟩

theorem finishCold_frame (t : Topic) (op : FetchOp) (ms : List Msg) (now : Nat) :
    Frame t (t.finishCold op ms now).1 ∧ (t.finishCold op ms now).1.clients = t.clients := by
  unfold Topic.finishCold
  split
  · exact ⟨Frame.refl t, rfl⟩
  · simp only
    split
    · exact ⟨⟨rfl, rfl, rfl, rfl, rfl, rfl, fun _ h => h⟩, rfl⟩
    · split <;> exact ⟨⟨rfl, rfl, rfl, rfl, rfl, rfl, fun _ h => h⟩, rfl⟩

theorem dropBinding_frame (order : Str → List Nat) (t : Topic) (b : Str × Str) :
    Frame t (Topic.dropBinding order t b) ∧ (Topic.dropBinding order t b).clients = t.clients := by
  unfold Topic.dropBinding
  split
  · exact ⟨Frame.refl t, rfl⟩
  · split
    · exact ⟨Frame.refl t, rfl⟩
    · exact ⟨⟨rfl, rfl, rfl, rfl, rfl, rfl, fun _ h => h⟩, rfl⟩

theorem dropBindings_frame (order : Str → List Nat) (bs : List (Str × Str)) (t : Topic) :
    Frame t (bs.foldl (Topic.dropBinding order) t) ∧ (bs.foldl (Topic.dropBinding order) t).clients = t.clients := by
  induction bs generalizing t with
  | nil => exact ⟨Frame.refl t, rfl⟩
  | cons b bs ih =>
    have h1 := dropBinding_frame order t b
    have h2 := ih (Topic.dropBinding order t b)
    exact ⟨h1.1.trans h2.1, h2.2.trans h1.2⟩

theorem disconnect_frame (t : Topic) (conn : Str) (order : Str → List Nat) : Frame t (t.disconnect conn order) := by
  unfold Topic.disconnect
  split
  · exact Frame.refl t
  · have := (dropBindings_frame order ‹_› { t with clients := mdel t.clients conn }).1
    exact ⟨this.1, this.2, this.3, this.4, this.5, this.6, this.7⟩

/-- The topic's invariant is preserved by every step. -/
theorem TInv.step {t : Topic} (h : TInv t) (crc : Bytes → Nat) (e : Ev) : TInv (t.step crc e).1 := by
  have hn := h.next1
  cases e with
  | publish ts p =>
    have hl := h.log.append ts p
    refine ⟨hl, ?_, ?_, ?_, ?_, ?_⟩ <;> simp only [Topic.step, Log.append]
    · exact fun s hs => Nat.le_succ_of_le (h.segs s hs)
    · exact fun c hc => Nat.le_succ_of_le (h.ctx c hc)
    · exact fun m hm => Nat.lt_succ_of_lt (h.chan m hm)
    · intro m hm
      rcases List.mem_append.1 hm with hm | hm
      · exact Nat.lt_succ_of_lt (h.sends m hm)
      · rw [List.mem_singleton.1 hm]; exact Nat.lt_succ_self _
    · exact fun x hx => Nat.le_succ_of_le (h.retain x hx)
  | send i =>
    simp only [Topic.step]
    cases hi : t.sends[i]? with
    | none => exact h
    | some m =>
      refine ⟨h.log, h.segs, h.ctx, ?_, ?_, h.retain⟩
      · intro m' hm'
        rcases List.mem_append.1 hm' with hm' | hm'
        · exact h.chan m' hm'
        · simp only [List.mem_singleton, SCmd.append.injEq] at hm'
          rw [hm']; exact h.sends m (List.mem_of_getElem? hi)
      · exact fun m' hm' => h.sends m' (List.mem_of_mem_eraseIdx hm')
  | join g conn c => exact h.frame rfl rfl rfl (fun _ x => x) rfl rfl
  | leave g c gen order =>
    simp only [Topic.step, Topic.leave]
    split
    · exact h
    · split
      · exact h
      · split
        · exact h
        · exact h.frame rfl rfl rfl (fun _ x => x) rfl rfl
  | disconnect conn order => exact (disconnect_frame t conn order).inv h
  | fetch g c gen l p =>
    simp only [Topic.step]
    split <;> exact h.frame rfl rfl rfl (fun _ x => x) rfl rfl
  | attempt id now => exact (attempt_frame t id now).1.inv h
  | giveUp id =>
    simp only [Topic.step]
    split
    · exact h
    · split
      · exact h.frame rfl rfl rfl (fun _ x => x) rfl rfl
      · exact h
  | finish id now =>
    simp only [Topic.step]
    split
    · exact h
    · split
      · have := (finishCold_frame t ‹_› ‹_› now).1.inv h
        exact this.frame rfl rfl rfl (fun _ x => x) rfl rfl
      · exact h
  | abort id => exact h.frame rfl rfl rfl (fun _ x => x) rfl rfl
  | ack g c gen s =>
    simp only [Topic.step, Topic.ack]
    split
    · exact h
    · split <;> exact h.frame rfl rfl rfl (fun _ x => x) rfl rfl
  | seek g e => exact h.frame rfl rfl rfl (fun _ x => x) rfl rfl
  | tick now order => exact h.frame rfl rfl rfl (fun _ x => x) rfl rfl
  | evictLoad => exact h.frame rfl rfl rfl (fun _ x => x) rfl rfl
  | evictRun =>
    simp only [Topic.step]
    split
    · exact h
    · exact ⟨h.log.evict _, h.segs, h.ctx, h.chan, h.sends, h.retain⟩
  | save order =>
    simp only [Topic.step, Topic.saveGroups]
    split
    · exact h.frame rfl rfl rfl (fun m x => by simpa using x) rfl rfl
    · exact h
  | retainSend =>
    simp only [Topic.step]
    split
    · exact ⟨h.log, h.segs, h.ctx, fun m hm => h.chan m (by simpa using hm), h.sends, fun x hx => by cases hx⟩
    · exact h
  | retainDone =>
    simp only [Topic.step]
    split
    · next hd hr =>
      have hle := h.retain hd hr
      unfold Topic.applyOutcome
      split
      · exact ⟨h.log.applyHead hd hle, h.segs, h.ctx, h.chan, h.sends, fun x hx => by cases hx⟩
      · exact ⟨h.log, h.segs, h.ctx, h.chan, h.sends, fun x hx => by cases hx⟩
    · exact h
  | read f l =>
    simp only [Topic.step, Topic.startRead]
    split
    · exact h.frame rfl rfl rfl (fun m x => by simpa using x) rfl rfl
    · exact h.frame rfl rfl rfl (fun _ x => x) rfl rfl
  | readDone id =>
    simp only [Topic.step]
    split
    · exact h.frame rfl rfl rfl (fun _ x => x) rfl rfl
    · exact h
  | storage now =>
    simp only [Topic.step]
    split
    · exact h
    · next c cs hc =>
      have h' : TInv { t with chan := cs } :=
        h.frame rfl rfl rfl (fun m hm => by rw [hc]; exact List.mem_cons_of_mem _ hm) rfl rfl
      exact (h'.handle crc c now (fun m hm => h.chan m (by rw [hc, hm]; simp))).1
  | flush now =>
    simp only [Topic.step, Topic.flushAll]
    have hs : ∀ s ∈ (t.disk.flushAll now).segs, s.start ≤ t.log.next := by
      intro s hs
      obtain ⟨y, hy, e⟩ := flushAll_starts hs
      rw [← e]; exact h.segs y hy
    split
    · exact ⟨h.log, hs, h.ctx, h.chan, h.sends, h.retain⟩
    · next c hc =>
      refine ⟨h.log, hs, ?_, h.chan, h.sends, h.retain⟩
      intro c' hc'
      have := h.ctx c hc
      simp only [Option.some.injEq] at hc'
      rw [← hc']
      split <;> exact this
  | leak start n now =>
    refine ⟨h.log, ?_, h.ctx, h.chan, h.sends, h.retain⟩
    intro s hs
    obtain ⟨y, hy, e⟩ := leak_starts hs
    rw [← e]; exact h.segs y hy
  | closeHandle start now =>
    refine ⟨h.log, ?_, h.ctx, h.chan, h.sends, h.retain⟩
    intro s hs
    obtain ⟨y, hy, e⟩ := close_starts hs
    rw [← e]; exact h.segs y hy

end Verif.Stream
