import Verif.Proofs.StreamStart
import Verif.Proofs.StreamPending

/-!
# What is in the files and in the answers, in any order

`Stored P t`: every message in memory, on its way to the storage task, in the files or in an answer of the storage task has
property `P`.  Unlike `DInv` this does not depend on the order in which the storage task gets the messages.
-/

namespace Verif.Stream

variable {crc : Bytes → Nat} {P : Msg → Prop} {d : Disk} {t : Topic}

/-- The bytes of a segment that have not reached its file. -/
def Disk.buf (d : Disk) (start : Nat) : Bytes := (mget d.writers start).getD []

/-- Every segment consists of complete records of messages with `P` (its last ones may not have reached the file). -/
def Recs (crc : Bytes → Nat) (P : Msg → Prop) (d : Disk) : Prop :=
  ∀ s ∈ d.segs, ∃ ms, s.data ++ d.buf s.start = records crc ms ∧ ∀ m ∈ ms, Fits m ∧ P m

theorem Recs.mono {Q : Msg → Prop} (h : Recs crc P d) (hpq : ∀ m, P m → Q m) : Recs crc Q d := by
  intro s hs
  obtain ⟨ms, h1, h2⟩ := h s hs
  exact ⟨ms, h1, fun m hm => ⟨(h2 m hm).1, hpq m (h2 m hm).2⟩⟩

theorem mem_writeSeg' {start : Nat} {bytes : Bytes} {now : Nat} {segs : List Seg} {x : Seg}
    (h : x ∈ writeSeg start bytes now segs) :
    (x ∈ segs ∧ x.start ≠ start) ∨ ∃ s ∈ segs, s.start = start ∧ x.start = start ∧ x.data = s.data ++ bytes := by
  obtain ⟨s, hs, hx⟩ := List.mem_map.1 h
  split at hx
  · next hc => subst hx; exact .inr ⟨s, hs, hc, hc, rfl⟩
  · next hc => subst hx; exact .inl ⟨hs, hc⟩

theorem Recs.leak (h : Recs crc P d) (start n now : Nat) : Recs crc P (d.leak start n now) := by
  unfold Disk.leak
  split
  · exact h
  · exact h
  · next x xs hw =>
    intro s hs
    rcases mem_writeSeg' hs with ⟨h1, h2⟩ | ⟨s0, h1, h2, h3, h4⟩
    · obtain ⟨ms, e1, e2⟩ := h s h1
      refine ⟨ms, ?_, e2⟩
      simp only [Disk.buf, mget_mset_ne _ _ h2]
      exact e1
    · obtain ⟨ms, e1, e2⟩ := h s0 h1
      refine ⟨ms, ?_, e2⟩
      simp only [Disk.buf, h3, mget_mset_same, Option.getD_some, h4]
      rw [List.append_assoc, List.take_append_drop, ← e1]
      simp only [Disk.buf, h2, hw, Option.getD_some]

theorem Recs.flush (h : Recs crc P d) (start now : Nat) : Recs crc P (d.flush start now) := by
  unfold Disk.flush
  split
  · exact h
  · exact h.leak _ _ _

theorem flush_buf (d : Disk) (start now : Nat) : (d.flush start now).buf start = [] := by
  unfold Disk.flush
  split
  · next h => simp [Disk.buf, h]
  · next b h =>
    unfold Disk.leak
    rw [h]
    cases b with
    | nil => simp [Disk.buf, h]
    | cons x xs => simp [Disk.buf, mget_mset_same]

theorem Recs.close (h : Recs crc P d) (start now : Nat) : Recs crc P (d.close start now) := by
  intro s hs
  obtain ⟨ms, e1, e2⟩ := h.flush start now s hs
  refine ⟨ms, ?_, e2⟩
  by_cases hc : s.start = start
  · rw [hc, flush_buf] at e1
    simp only [Disk.close, Disk.buf, hc, mget_mdel_same]
    exact e1
  · simp only [Disk.close, Disk.buf, mget_mdel_ne _ hc]
    exact e1

theorem Recs.openWriter (h : Recs crc P d) (start now : Nat) : Recs crc P (d.openWriter start now) := by
  unfold Disk.openWriter
  split
  · exact h
  · next hw =>
    have hn : mget d.writers start = none := by simpa [mhas] using hw
    intro s hs
    have hbuf : ∀ k, (Disk.buf { d with segs := insertSeg { start, data := [], mtime := now } d.segs, writers := mset d.writers start [] } k)
        = d.buf k := by
      intro k
      simp only [Disk.buf, mget_mset]
      split
      · next hk => subst hk; simp [hn]
      · rfl
    rw [hbuf]
    rcases mem_insertSeg hs with h1 | h1
    · subst h1
      exact ⟨[], by simp [Disk.buf, hn, records], by simp⟩
    · exact h s h1

theorem Recs.write (h : Recs crc P d) (start : Nat) {m : Msg} (hf : Fits m) (hm : P m) :
    Recs crc P (d.write start (record crc m)) := by
  intro s hs
  obtain ⟨ms, e1, e2⟩ := h s hs
  simp only [Disk.write, Disk.buf, mget_mupd]
  split
  · next hc =>
    cases hw : mget d.writers s.start with
    | none => exact ⟨ms, by simpa [Disk.buf, hw] using e1, e2⟩
    | some b =>
      refine ⟨ms ++ [m], ?_, ?_⟩
      · rw [records_append, ← e1]
        simp [Disk.buf, hw, records]
      · intro x hx
        rcases List.mem_append.1 hx with hx | hx
        · exact e2 x hx
        · rw [List.mem_singleton.1 hx]; exact ⟨hf, hm⟩
  · exact ⟨ms, e1, e2⟩

theorem Recs.flushAll (h : Recs crc P d) (now : Nat) : Recs crc P (d.flushAll now) := by
  unfold Disk.flushAll
  generalize mkeys d.writers = ks
  induction ks generalizing d with
  | nil => exact h
  | cons k ks ih => exact ih (h.flush k now)

theorem mget_filter_key {α : Type} (p : Nat → Bool) (m : List (Nat × α)) (k : Nat) (hk : p k = true) :
    mget (m.filter (fun w => p w.1)) k = mget m k := by
  induction m with
  | nil => rfl
  | cons e m ih =>
    rw [List.filter_cons]
    split
    · simp only [mget_cons, ih]
    · next hp =>
      rw [mget_cons, if_neg, ih]
      intro he; rw [he] at hp; exact hp hk

theorem Recs.retain (h : Recs crc P d) (r : Retention) (now : Nat) : Recs crc P (d.retain r now) := by
  intro s hs
  obtain ⟨ms, e1, e2⟩ := h s (retainSegs_sub hs)
  refine ⟨ms, ?_, e2⟩
  rw [← e1]
  simp only [Disk.retain, Disk.buf]
  rw [mget_filter_key (fun k => !d.segs.any (fun s => s.start = k) || (retainSegs r now d.segs).any (fun s => s.start = k))]
  simp only [Bool.or_eq_true]
  right
  exact List.any_eq_true.2 ⟨s, hs, by simp⟩

theorem Recs.append (h : Recs crc P d) (maxSegment : Nat) (c : Ctx) {m : Msg} (hf : Fits m) (hm : P m) (now : Nat) :
    Recs crc P (appendTo crc maxSegment d c m now).1 := by
  unfold appendTo
  split
  · exact ((h.close _ _).openWriter _ _).write _ hf hm
  · exact (h.openWriter _ _).write _ hf hm

/-- Whatever is read from the files has `P`. -/
theorem Recs.readLog (h : Recs crc P d) {s : Seg} (hs : s ∈ d.segs) (start limit : Nat) (hl : 0 < limit) :
    ∀ m ∈ readLog crc s.data start limit, Fits m ∧ P m := by
  obtain ⟨ms, e1, e2⟩ := h s hs
  obtain ⟨k, torn, _, c2, c3, _⟩ := cut crc (fun m hm => (e2 m hm).1) s.data.length
  have hd : s.data = records crc (ms.take k) ++ torn := by rw [← c2, ← e1]; simp
  rw [hd, readLog_records crc start limit (fun m hm => (e2 m (List.mem_of_mem_take hm)).1) c3 hl]
  intro m hm
  exact e2 m (List.mem_of_mem_take (List.mem_filter.1 (List.mem_of_mem_take hm)).1)

theorem Recs.coldLoop (h : Recs crc P d) (ss : List Seg) (hs : ∀ s ∈ ss, s ∈ d.segs) : ∀ (cur rem : Nat),
    ∀ m ∈ coldLoop crc ss cur rem, Fits m ∧ P m := by
  induction ss with
  | nil => intro cur rem m hm; cases hm
  | cons s ss ih =>
    intro cur rem m hm
    unfold Stream.coldLoop at hm
    split at hm
    · cases hm
    · rcases List.mem_append.1 hm with hm | hm
      · exact h.readLog (hs s List.mem_cons_self) _ _ (by omega) m hm
      · exact ih (fun x hx => hs x (List.mem_cons_of_mem _ hx)) _ _ m hm

theorem fromLast_mem {cur : Nat} {ss r : List Seg} (h : fromLast cur ss = some r) : ∀ s ∈ r, s ∈ ss := by
  induction ss with
  | nil => cases h
  | cons x ss ih =>
    unfold fromLast at h
    split at h
    · next r' hr =>
      simp only [Option.some.injEq] at h
      subst h
      exact fun s hs => List.mem_cons_of_mem _ (ih hr s hs)
    · split at h
      · simp only [Option.some.injEq] at h
        subst h
        exact fun s hs => hs
      · cases h

theorem Recs.coldRead (h : Recs crc P d) (fromSeq limit : Nat) : ∀ m ∈ coldRead crc d.segs fromSeq limit, Fits m ∧ P m := by
  intro m hm
  unfold Stream.coldRead at hm
  split at hm
  · cases hm
  · next first rest hseg =>
    split at hm
    · cases hm
    · next r hr =>
      refine h.coldLoop r (fun s hs => ?_) _ _ m hm
      exact fromLast_mem hr s hs

theorem evictLoop_mem (soft p head : Nat) (ms : List Msg) : ∀ rs, ∀ m ∈ (Log.evictLoop soft p head ms rs).1, m ∈ ms := by
  induction ms with
  | nil => intro rs m h; exact h
  | cons x ms ih =>
    intro rs m h
    unfold Log.evictLoop at h
    split at h
    · split at h
      · exact List.mem_cons_of_mem _ (ih _ m h)
      · exact h
    · exact h

/-- Where the messages of an answer to a read come from. -/
theorem step_readReply {e : Ev} {id : Nat} {ms : List Msg} (h : (t.step crc e).2 = .readReply id ms) :
    (∀ m ∈ ms, m ∈ t.log.msgs) ∨ mget t.reads id = some (some ms) := by
  cases e with
  | read f l =>
    left
    simp only [Topic.step, Topic.startRead] at h
    split at h
    · cases h
    · simp only [Out.readReply.injEq] at h
      rw [← h.2]
      intro m hm
      unfold Log.read at hm
      split at hm
      · exact List.mem_of_mem_drop (List.mem_of_mem_take hm)
      · cases hm
  | readDone i =>
    right
    simp only [Topic.step] at h
    split at h
    · next xs hx => simp only [Out.readReply.injEq] at h; rw [← h.1, ← h.2]; exact hx
    · cases h
  | send i => simp only [Topic.step] at h; split at h <;> cases h
  | join g conn c => simp only [Topic.step, Topic.join] at h; cases h
  | leave g c gen order =>
    simp only [Topic.step, Topic.leave] at h
    split at h
    · cases h
    · split at h
      · cases h
      · split at h <;> cases h
  | fetch g c gen l p => simp only [Topic.step] at h; split at h <;> cases h
  | attempt i now =>
    simp only [Topic.step, Topic.attempt] at h
    split at h
    · cases h
    · split at h
      · cases h
      · split at h
        · cases h
        · cases h
        · cases h
        · split at h <;> cases h
  | giveUp i =>
    simp only [Topic.step] at h
    split at h
    · cases h
    · split at h <;> cases h
  | finish i now =>
    simp only [Topic.step] at h
    split at h
    · cases h
    · split at h <;> cases h
  | ack g c gen s =>
    simp only [Topic.step, Topic.ack] at h
    split at h
    · cases h
    · split at h <;> cases h
  | seek g b => simp only [Topic.step, Topic.seek] at h; cases h
  | evictRun => simp only [Topic.step] at h; split at h <;> cases h
  | retainSend => simp only [Topic.step] at h; split at h <;> cases h
  | retainDone => simp only [Topic.step] at h; split at h <;> cases h
  | storage now => simp only [Topic.step] at h; split at h <;> cases h
  | _ => simp only [Topic.step] at h; cases h

/-- Every message in memory, on its way to the storage task, in the files or in an answer of the storage task has `P`. -/
structure Stored (crc : Bytes → Nat) (P : Msg → Prop) (t : Topic) : Prop where
  recs : Recs crc P t.disk
  log : ∀ m ∈ t.log.msgs, P m
  chan : ∀ m ∈ chanMsgs t.chan, Fits m ∧ P m
  sends : ∀ m ∈ t.sends, Fits m ∧ P m
  answers : ∀ id op ms, mget t.fetches id = some op → op.phase = .answered ms → ∀ m ∈ ms, P m
  reads : ∀ id ms, mget t.reads id = some (some ms) → ∀ m ∈ ms, P m

theorem Stored.mono {Q : Msg → Prop} (h : Stored crc P t) (hpq : ∀ m, P m → Q m) : Stored crc Q t :=
  ⟨h.recs.mono hpq, fun m hm => hpq m (h.log m hm), fun m hm => ⟨(h.chan m hm).1, hpq m (h.chan m hm).2⟩,
    fun m hm => ⟨(h.sends m hm).1, hpq m (h.sends m hm).2⟩,
    fun id op ms h1 h2 m hm => hpq m (h.answers id op ms h1 h2 m hm), fun id ms h1 m hm => hpq m (h.reads id ms h1 m hm)⟩

theorem Stored.step (h : Stored crc P t) (e : Ev) (hp : ∀ m ∈ published t.log.next [e], Fits m ∧ P m) :
    Stored crc P (Topic.step crc t e).1 := by
  have w := step_waits crc t e
  have hans : ∀ id op ms, mget (Topic.step crc t e).1.fetches id = some op → op.phase = .answered ms → ∀ m ∈ ms, P m := by
    intro id op' ms ho hph m hm
    rcases w.fetches id op' ho with h1 | ⟨op, h1, _, h3⟩
    · rw [h1.2.2] at hph; cases hph
    · rcases h3 ms hph with h4 | ⟨fr, l, cs, _, h5⟩
      · exact h.answers id op ms h1 h4 m hm
      · rw [h5] at hm; exact (h.recs.coldRead fr l m hm).2
  have hreads : ∀ id ms, mget (Topic.step crc t e).1.reads id = some (some ms) → ∀ m ∈ ms, P m := by
    intro id ms hr m hm
    rcases w.reads id ms hr with h1 | ⟨fr, l, cs, _, h5⟩
    · exact h.reads id ms h1 m hm
    · rw [h5] at hm; exact (h.recs.coldRead fr l m hm).2
  refine (show _ ∧ _ ∧ _ ∧ _ from ?_ : Recs crc P (Topic.step crc t e).1.disk ∧ (∀ m ∈ (Topic.step crc t e).1.log.msgs, P m)
    ∧ (∀ m ∈ chanMsgs (Topic.step crc t e).1.chan, Fits m ∧ P m) ∧ (∀ m ∈ (Topic.step crc t e).1.sends, Fits m ∧ P m)).elim
    (fun a b => ⟨a, b.1, b.2.1, b.2.2, hans, hreads⟩)
  clear hans hreads w
  by_cases hw : e.writes = false
  · have hf := step_dframe t crc e hw
    rw [hf.disk, hf.log, hf.chan, hf.sends]
    exact ⟨h.recs, h.log, h.chan, h.sends⟩
  cases e with
  | publish ts p =>
    have hm := hp _ (by simp only [published]; exact List.mem_cons_self)
    refine ⟨h.recs, ?_, h.chan, ?_⟩
    · intro m hx
      simp only [Topic.step, Log.append] at hx
      rcases List.mem_append.1 hx with hx | hx
      · exact h.log m hx
      · rw [List.mem_singleton.1 hx]; exact hm.2
    · intro m hx
      simp only [Topic.step] at hx
      rcases List.mem_append.1 hx with hx | hx
      · exact h.sends m hx
      · rw [List.mem_singleton.1 hx]; exact hm
  | send i =>
    simp only [Topic.step]
    split
    · exact ⟨h.recs, h.log, h.chan, h.sends⟩
    · next m0 hm0 =>
      refine ⟨h.recs, h.log, ?_, fun m hm => h.sends m (List.mem_of_mem_eraseIdx hm)⟩
      intro m hm
      simp only [chanMsgs_append] at hm
      rcases List.mem_append.1 hm with hm | hm
      · exact h.chan m hm
      · simp [chanMsgs] at hm
        rw [hm]; exact h.sends m0 (List.mem_of_getElem? hm0)
  | evictLoad => exact ⟨h.recs, h.log, h.chan, h.sends⟩
  | evictRun =>
    simp only [Topic.step]
    split
    · exact ⟨h.recs, h.log, h.chan, h.sends⟩
    · exact ⟨h.recs, fun m hm => h.log m (evictLoop_mem _ _ _ _ _ m hm), h.chan, h.sends⟩
  | retainSend =>
    simp only [Topic.step]
    split
    · refine ⟨h.recs, h.log, ?_, h.sends⟩
      intro m hm
      simp only [chanMsgs_append] at hm
      rcases List.mem_append.1 hm with hm | hm
      · exact h.chan m hm
      · simp [chanMsgs] at hm
    · exact ⟨h.recs, h.log, h.chan, h.sends⟩
  | retainDone =>
    simp only [Topic.step]
    split
    · unfold Topic.applyOutcome
      split
      · exact ⟨h.recs, fun m hm => h.log m ((List.dropWhile_sublist _).subset hm), h.chan, h.sends⟩
      · exact ⟨h.recs, h.log, h.chan, h.sends⟩
    · exact ⟨h.recs, h.log, h.chan, h.sends⟩
  | storage now =>
    simp only [Topic.step]
    split
    · exact ⟨h.recs, h.log, h.chan, h.sends⟩
    · next c cs hc =>
      have hsub : ∀ m ∈ chanMsgs cs, Fits m ∧ P m := fun m hm => h.chan m (by
        rw [hc, show c :: cs = [c] ++ cs from rfl, chanMsgs_append]; exact List.mem_append_right _ hm)
      cases c with
      | append m =>
        have hm := h.chan m (by rw [hc]; simp [chanMsgs])
        exact ⟨h.recs.append _ _ hm.1 hm.2 now, h.log, hsub, h.sends⟩
      | cold id fr l => exact ⟨h.recs, h.log, hsub, h.sends⟩
      | coldRead id fr l => exact ⟨h.recs, h.log, hsub, h.sends⟩
      | save gs => exact ⟨h.recs, h.log, hsub, h.sends⟩
      | retention => exact ⟨h.recs.retain _ _, h.log, hsub, h.sends⟩
  | flush now =>
    simp only [Topic.step, Topic.flushAll]
    split
    · exact ⟨h.recs.flushAll now, h.log, h.chan, h.sends⟩
    · exact ⟨h.recs.flushAll now, h.log, h.chan, h.sends⟩
  | leak s n now => exact ⟨h.recs.leak s n now, h.log, h.chan, h.sends⟩
  | closeHandle s now => exact ⟨h.recs.close s now, h.log, h.chan, h.sends⟩
  | _ => exact absurd rfl hw

theorem step_next (crc : Bytes → Nat) (t : Topic) (e : Ev) :
    (t.step crc e).1.log.next = t.log.next + (published t.log.next [e]).length := by
  by_cases hw : e.writes = false
  · rw [(step_dframe t crc e hw).log]
    cases e <;> first | rfl | cases hw
  cases e with
  | publish ts p => rfl
  | send i => simp only [Topic.step]; split <;> rfl
  | evictLoad => rfl
  | evictRun => simp only [Topic.step]; split <;> rfl
  | retainSend => simp only [Topic.step]; split <;> rfl
  | retainDone =>
    simp only [Topic.step]
    split
    · unfold Topic.applyOutcome; split <;> rfl
    · rfl
  | storage now =>
    simp only [Topic.step]
    split
    · rfl
    · next c cs _ => cases c <;> rfl
  | flush now => simp only [Topic.step, Topic.flushAll]; split <;> rfl
  | leak s n now => rfl
  | closeHandle s now => rfl
  | _ => exact absurd rfl hw

theorem Stored.run (h : Stored crc P t) (es : List Ev) (hp : ∀ m ∈ published t.log.next es, Fits m ∧ P m) :
    Stored crc P (Topic.run crc t es) := by
  induction es generalizing t with
  | nil => exact h
  | cons e es ih =>
    have hpa : published t.log.next (e :: es) = published t.log.next [e] ++ published (t.log.next + (published t.log.next [e]).length) es :=
      published_append t.log.next [e] es
    rw [hpa] at hp
    refine ih (h.step e fun m hm => hp m (List.mem_append_left _ hm)) fun m hm => ?_
    have hnext : (t.step crc e).1.log.next = t.log.next + (published t.log.next [e]).length := step_next crc t e
    rw [hnext] at hm
    exact hp m (List.mem_append_right _ hm)

/-- The messages of an answer. -/
theorem Stored.fetched (h : Stored crc P t) {e : Ev} {q : Query} {ms : List Msg}
    (ho : (t.step crc e).2 = .fetched q (.ok ms)) : ∀ m ∈ ms, P m := by
  intro m hm
  rcases step_fetched ho with h1 | ⟨id, op, xs, h1, h2, _, h4⟩
  · exact h.log m (h1.1 m hm)
  · exact h.answers id op xs h1 h2 m (h4.subset hm)

/-- The messages of the answer to a read. -/
theorem Stored.readReply (h : Stored crc P t) {e : Ev} {id : Nat} {ms : List Msg}
    (ho : (t.step crc e).2 = .readReply id ms) : ∀ m ∈ ms, P m := by
  intro m hm
  rcases step_readReply ho with h1 | h1
  · exact h.log m (h1 m hm)
  · exact h.reads id ms h1 m hm

theorem Stored.start {base : Nat} {H : List Msg} {now : Nat} (h : StartsWith crc base H now t) : Stored crc (· ∈ H) t := by
  obtain ⟨_, hd, _, _⟩ := h.inv
  obtain ⟨lossy, d, hin, ht⟩ := h
  obtain ⟨parts, hf, hfl, _, _⟩ := hin.files
  refine ⟨?_, fun m hm => hd.mem.subset hm, ?_, ?_, ?_, ?_⟩
  · rw [ht]
    intro s hs
    have hs' : s ∈ d.segs := hs
    obtain ⟨i, hi, hsi⟩ := List.getElem_of_mem hs'
    have hdat := congrArg (fun l => l[i]?) hf.data
    simp only [List.getElem?_map, List.getElem?_eq_getElem hi, Option.map_some] at hdat
    cases hp : parts[i]? with
    | none => rw [hp] at hdat; cases hdat
    | some p =>
      rw [hp] at hdat
      simp only [Option.map_some, Option.some.injEq] at hdat
      refine ⟨p, ?_, fun m hm => ?_⟩
      · have : (Topic.build crc t.cfg lossy d).disk.buf s.start = [] := rfl
        rw [this, List.append_nil, ← hsi, hdat]
      · have : m ∈ H := by rw [← hfl]; exact List.mem_flatten.2 ⟨p, List.mem_of_getElem? hp, hm⟩
        exact ⟨hin.fits m this, this⟩
  all_goals rw [ht]
  · intro m hm; cases hm
  · intro m hm; cases hm
  · intro id op ms ho; cases ho
  · intro id ms ho; cases ho

end Verif.Stream
