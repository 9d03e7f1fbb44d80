import Verif.Proofs.StreamLog
import Verif.Proofs.StreamHist
import Verif.Props.StreamFiles

/-!
# Lemmas about topics without limits: nothing is removed
-/

namespace Verif.Stream

/-- The numbers in the names of the segment files. -/
def segNames (d : Disk) : List Nat := d.segs.map (·.start)

theorem names_leak (d : Disk) (s n now : Nat) : segNames (d.leak s n now) = segNames d := by
  unfold Disk.leak
  split
  · rfl
  · rfl
  · simp only [segNames, writeSeg, List.map_map]
    apply List.map_congr_left
    intro x _
    simp only [Function.comp]
    split <;> rfl

theorem names_flush (d : Disk) (s now : Nat) : segNames (d.flush s now) = segNames d := by
  unfold Disk.flush
  split
  · rfl
  · exact names_leak ..

theorem names_flushAll (d : Disk) (now : Nat) : segNames (d.flushAll now) = segNames d := by
  unfold Disk.flushAll
  generalize mkeys d.writers = L
  induction L generalizing d with
  | nil => rfl
  | cons s L ih => rw [List.foldl_cons, ih, names_flush]

theorem writers_leak (d : Disk) (s n now : Nat) (h : d.writers = []) : (d.leak s n now).writers = [] := by
  unfold Disk.leak
  simp [h, mget]

theorem writers_flush (d : Disk) (s now : Nat) (h : d.writers = []) : (d.flush s now).writers = [] := by
  unfold Disk.flush
  simp [h, mget]

theorem writers_flushAll (d : Disk) (now : Nat) (h : d.writers = []) : (d.flushAll now).writers = [] := by
  unfold Disk.flushAll
  simp [h, mkeys]

/-- The files of a topic of which nothing has been removed. -/
structure Full (d : Disk) : Prop where
  first : ∀ s, (segNames d).head? = some s → s = 1
  pos : ∀ s ∈ segNames d, 1 ≤ s
  empty : segNames d = [] → d.writers = []

theorem Full.headSeq {d : Disk} (h : Full d) : d.headSeq = 1 := by
  unfold Disk.headSeq
  cases hs : d.segs with
  | nil => rfl
  | cons s l =>
    have := h.first s.start (by simp [segNames, hs])
    simpa using this

theorem Full.same {d d' : Disk} (h : Full d) (hs : segNames d' = segNames d) (hw : d.writers = [] → d'.writers = []) : Full d' :=
  ⟨by rw [hs]; exact h.first, by rw [hs]; exact h.pos, fun he => hw (h.empty (by rw [← hs]; exact he))⟩

theorem insertSeg_head {s : Seg} {l : List Seg} (h1 : 1 ≤ s.start) (hf : ∀ x, (l.map (·.start)).head? = some x → x = 1) (he : l = [] → s.start = 1) :
    ∀ x, ((insertSeg s l).map (·.start)).head? = some x → x = 1 := by
  cases l with
  | nil => intro x hx; simp [insertSeg] at hx; rw [← hx]; exact he rfl
  | cons t l =>
    have ht : t.start = 1 := hf t.start (by simp)
    intro x hx
    simp only [insertSeg] at hx
    rw [if_neg (by omega)] at hx
    split at hx <;> simp at hx <;> omega

theorem insertSeg_ne (s : Seg) (l : List Seg) : insertSeg s l ≠ [] := by
  cases l with
  | nil => simp [insertSeg]
  | cons t l =>
    simp only [insertSeg]
    split
    · simp
    · split <;> simp

/-- A writer is opened. -/
theorem Full.openWriter {d : Disk} (h : Full d) {k : Nat} (now : Nat) (h1 : 1 ≤ k) (he : segNames d = [] → k = 1) :
    Full (d.openWriter k now) ∧ segNames (d.openWriter k now) ≠ [] := by
  unfold Disk.openWriter
  split
  · next hw =>
    refine ⟨h, fun hs => ?_⟩
    rw [h.empty hs] at hw
    cases hw
  · have hne : segNames { d with segs := insertSeg { start := k, data := [], mtime := now } d.segs, writers := mset d.writers k [] } ≠ [] := by
      simp only [segNames, ne_eq, List.map_eq_nil_iff]
      exact insertSeg_ne _ _
    refine ⟨⟨?_, ?_, fun hs => absurd hs hne⟩, hne⟩
    · exact insertSeg_head (l := d.segs) (s := { start := k, data := [], mtime := now }) h1 h.first (fun hs => he (by simp [segNames, hs]))
    · intro s hs
      simp only [segNames, List.mem_map] at hs
      obtain ⟨x, hx, rfl⟩ := hs
      rcases mem_insertSeg hx with hx | hx
      · rw [hx]; exact h1
      · exact h.pos _ (by simp only [segNames, List.mem_map]; exact ⟨x, hx, rfl⟩)

theorem Full.write {d : Disk} (h : Full d) (hne : segNames d ≠ []) (k : Nat) (b : Bytes) : Full (d.write k b) :=
  ⟨h.first, h.pos, fun hs => absurd hs hne⟩

/-- A topic of which nothing has been removed and nothing is to be removed. -/
structure Whole (t : Topic) : Prop where
  limits : t.cfg.retention = ⟨none, none⟩
  head : t.log.head = 1
  next : 1 ≤ t.log.next
  sends : ∀ m ∈ t.sends, 1 ≤ m.seq
  chan : ∀ m ∈ chanMsgs t.chan, 1 ≤ m.seq
  disk : Full t.disk
  ctx : ∀ c, t.ctx = some c → 1 ≤ c.active ∧ segNames t.disk ≠ []
  out : ∀ h, t.retain = .outcome h → h = 1

variable {crc : Bytes → Nat}

theorem Full.append {d : Disk} (h : Full d) {c : Ctx} {m : Msg} (maxSegment now : Nat) (hm : 1 ≤ m.seq) (h1 : 1 ≤ c.active)
    (h2 : segNames d = [] → c.active = 1 ∧ c.size = 0) :
    Full (appendTo crc maxSegment d c m now).1 ∧ segNames (appendTo crc maxSegment d c m now).1 ≠ [] ∧ 1 ≤ (appendTo crc maxSegment d c m now).2.active := by
  unfold appendTo
  split
  · next hr =>
    have hne : segNames d ≠ [] := by
      intro he
      simp [Ctx.rolls, (h2 he).2] at hr
    have hs : segNames (d.close c.active now) = segNames d := names_flush d c.active now
    have hf : Full (d.close c.active now) := ⟨by rw [hs]; exact h.first, by rw [hs]; exact h.pos, fun he => absurd (hs ▸ he) hne⟩
    obtain ⟨a, b⟩ := hf.openWriter now hm (fun he => absurd (hs ▸ he) hne)
    exact ⟨a.write b .., b, hm⟩
  · obtain ⟨a, b⟩ := h.openWriter now h1 (fun he => (h2 he).1)
    exact ⟨a.write b .., b, h1⟩

theorem Whole.append {t : Topic} (h : Whole t) {m : Msg} (hm : 1 ≤ m.seq) (now : Nat) : Whole (t.handle crc (.append m) now) := by
  have hc : 1 ≤ (t.ctx.getD (Ctx.open t.disk)).active ∧
      (segNames t.disk = [] → (t.ctx.getD (Ctx.open t.disk)).active = 1 ∧ (t.ctx.getD (Ctx.open t.disk)).size = 0) := by
    cases hx : t.ctx with
    | some c => exact ⟨(h.ctx c hx).1, fun he => absurd he (h.ctx c hx).2⟩
    | none =>
      simp only [Option.getD_none, Ctx.open]
      split
      · next s hs =>
        have := List.mem_of_getLast? hs
        refine ⟨h.disk.pos _ (by simp only [segNames, List.mem_map]; exact ⟨s, this, rfl⟩), fun he => ?_⟩
        simp only [segNames, List.map_eq_nil_iff] at he
        rw [he] at this
        cases this
      · exact ⟨Nat.le_refl _, fun _ => ⟨rfl, rfl⟩⟩
  obtain ⟨a, b, c⟩ := h.disk.append (crc := crc) t.cfg.maxSegment now hm hc.1 hc.2
  refine ⟨h.limits, h.head, h.next, h.sends, h.chan, a, ?_, h.out⟩
  intro x hx
  simp only [Topic.handle, Option.some.injEq] at hx
  rw [← hx]
  exact ⟨c, b⟩

theorem Whole.handle {t : Topic} (h : Whole t) {c : SCmd} (hc : ∀ m, c = .append m → 1 ≤ m.seq) (now : Nat) : Whole (t.handle crc c now) := by
  cases c with
  | append m => exact h.append (hc m rfl) now
  | cold => exact ⟨h.limits, h.head, h.next, h.sends, h.chan, h.disk, h.ctx, h.out⟩
  | coldRead => exact ⟨h.limits, h.head, h.next, h.sends, h.chan, h.disk, h.ctx, h.out⟩
  | save => exact ⟨h.limits, h.head, h.next, h.sends, h.chan, ⟨h.disk.first, h.disk.pos, h.disk.empty⟩, h.ctx, h.out⟩
  | retention =>
    have hs : segNames (t.disk.retain t.cfg.retention now) = segNames t.disk := by
      simp only [segNames, Disk.retain, h.limits, C41_no_limits]
    have hf : Full (t.disk.retain t.cfg.retention now) := h.disk.same hs (fun hw => by simp only [Disk.retain, hw, List.filter_nil])
    refine ⟨h.limits, h.head, h.next, h.sends, h.chan, hf, ?_, ?_⟩
    · intro c hc
      refine ⟨(h.ctx c hc).1, fun he => (h.ctx c hc).2 (hs ▸ he)⟩
    · intro k hk
      simp only [Topic.handle, RetPhase.outcome.injEq] at hk
      rw [← hk]
      exact hf.headSeq

/-- Changes of the files that keep their names. -/
theorem Whole.disk' {t : Topic} (h : Whole t) {d : Disk} (hs : segNames d = segNames t.disk) (hw : t.disk.writers = [] → d.writers = []) :
    Full d ∧ ∀ c, t.ctx = some c → 1 ≤ c.active ∧ segNames d ≠ [] :=
  ⟨h.disk.same hs hw, fun c hc => ⟨(h.ctx c hc).1, by rw [hs]; exact (h.ctx c hc).2⟩⟩

theorem Whole.step {t : Topic} (h : Whole t) (e : Ev) : Whole (t.step crc e).1 := by
  by_cases he : e.writes = false
  · have f := step_dframe t crc e he
    exact ⟨by rw [f.cfg]; exact h.limits, by rw [f.log]; exact h.head, by rw [f.log]; exact h.next, by rw [f.sends]; exact h.sends,
      by rw [f.chan]; exact h.chan, by rw [f.disk]; exact h.disk, by rw [f.ctx, f.disk]; exact h.ctx, by rw [f.retain]; exact h.out⟩
  · cases e with
    | publish ts p =>
      refine ⟨h.limits, h.head, Nat.le_succ_of_le h.next, ?_, h.chan, h.disk, h.ctx, h.out⟩
      intro m hm
      rcases List.mem_append.1 hm with hm | hm
      · exact h.sends m hm
      · rw [List.mem_singleton] at hm
        rw [hm]
        exact h.next
    | send i =>
      simp only [Topic.step]
      split
      · exact h
      · next m hm =>
        refine ⟨h.limits, h.head, h.next, fun x hx => h.sends x (List.mem_of_mem_eraseIdx hx), ?_, h.disk, h.ctx, h.out⟩
        intro x hx
        simp only [chanMsgs_append] at hx
        rcases List.mem_append.1 hx with hx | hx
        · exact h.chan x hx
        · simp [chanMsgs] at hx
          rw [hx]
          exact h.sends m (List.mem_of_getElem? hm)
    | evictLoad => exact ⟨h.limits, h.head, h.next, h.sends, h.chan, h.disk, h.ctx, h.out⟩
    | evictRun =>
      simp only [Topic.step]
      split
      · exact h
      · exact ⟨h.limits, h.head, h.next, h.sends, h.chan, h.disk, h.ctx, h.out⟩
    | retainSend =>
      simp only [Topic.step]
      split
      · refine ⟨h.limits, h.head, h.next, h.sends, ?_, h.disk, h.ctx, fun k hk => by cases hk⟩
        simp only [chanMsgs_append]
        simpa [chanMsgs] using h.chan
      · exact h
    | retainDone =>
      simp only [Topic.step]
      split
      · next k hk =>
        have := h.out k hk
        subst this
        unfold Topic.applyOutcome
        rw [if_neg (by rw [h.head]; simp)]
        exact ⟨h.limits, h.head, h.next, h.sends, h.chan, h.disk, h.ctx, fun k hk => by cases hk⟩
      · exact h
    | storage now =>
      simp only [Topic.step]
      split
      · exact h
      · next c cs hc =>
        have hsub : ∀ m ∈ chanMsgs cs, 1 ≤ m.seq := fun m hm => h.chan m (by
          rw [hc, show c :: cs = [c] ++ cs from rfl, chanMsgs_append]; exact List.mem_append_right _ hm)
        refine Whole.handle (t := { t with chan := cs }) ⟨h.limits, h.head, h.next, h.sends, hsub, h.disk, h.ctx, h.out⟩ ?_ now
        rintro m rfl
        exact h.chan m (by rw [hc]; simp [chanMsgs])
    | flush now =>
      obtain ⟨a, b⟩ := h.disk' (names_flushAll t.disk now) (writers_flushAll t.disk now)
      simp only [Topic.step, Topic.flushAll]
      split
      · exact ⟨h.limits, h.head, h.next, h.sends, h.chan, a, b, h.out⟩
      · next c hc =>
        refine ⟨h.limits, h.head, h.next, h.sends, h.chan, a, ?_, h.out⟩
        intro c' hc'
        simp only [Option.some.injEq] at hc'
        have := b c hc
        rw [← hc']
        split <;> exact this
    | leak s n now =>
      obtain ⟨a, b⟩ := h.disk' (names_leak t.disk s n now) (writers_leak t.disk s n now)
      exact ⟨h.limits, h.head, h.next, h.sends, h.chan, a, b, h.out⟩
    | closeHandle s now =>
      obtain ⟨a, b⟩ := h.disk' (d := t.disk.close s now) (names_flush t.disk s now)
        (fun hw => by simp only [Disk.close, writers_flush t.disk s now hw]; rfl)
      exact ⟨h.limits, h.head, h.next, h.sends, h.chan, a, b, h.out⟩
    | _ => exact absurd rfl he

theorem Whole.run {t : Topic} (h : Whole t) (es : List Ev) : Whole (t.run crc es) := by
  induction es generalizing t with
  | nil => exact h
  | cons e es ih => exact ih (h.step e)

theorem Whole.fresh {cfg : Cfg} (h : cfg.retention = ⟨none, none⟩) : Whole (Topic.fresh crc cfg) :=
  ⟨h, rfl, Nat.le_refl _, (fun m hm => nomatch hm), (fun m hm => nomatch hm), ⟨(fun s hs => nomatch hs), (fun s hs => nomatch hs), fun _ => rfl⟩,
    (fun c hc => nomatch hc), (fun k hk => nomatch hk)⟩

/-- The head does not move. -/
theorem whole_head {cfg : Cfg} (h : cfg.retention = ⟨none, none⟩) (es : List Ev) : ((Topic.fresh crc cfg).run crc es).log.head = 1 :=
  ((Whole.fresh h).run es).head

end Verif.Stream
