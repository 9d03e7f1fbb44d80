import Verif.Proofs.StreamAny
import Verif.Spec.StreamFault

/-!
# Failing storage: what is in the files and in the answers
-/

namespace Verif.Stream

variable {crc : Bytes → Nat} {P : Msg → Prop} {d : Disk} {t : Topic}

/-! ### Nothing is invented -/

/-- A file that ends with a complete record holds records that were to be written. -/
theorem prefix_records {ms ms' : List Msg} {b c : Bytes} (h : b ++ c = records crc ms) (h' : b = records crc ms')
    (hf : ∀ m ∈ ms, Fits m) (hf' : ∀ m ∈ ms', Fits m) : ∀ m ∈ ms', m ∈ ms := by
  obtain ⟨k, torn, _, c2, c3, _⟩ := cut crc hf b.length
  have hb : b = records crc (ms.take k) ++ torn := by rw [← c2, ← h]; simp
  have e1 : loadLog crc b = ms' := by
    have := loadLog_records crc hf' (rest := [])
    rw [List.append_nil, show loadLog crc [] = [] from rfl, List.append_nil] at this
    rw [h']; exact this
  have e2 : loadLog crc b = ms.take k := by
    rw [hb, loadLog_records crc (fun m hm => hf m (List.mem_of_mem_take hm)), loadLog_torn crc c3, List.append_nil]
  intro m hm
  rw [← e1, e2] at hm
  exact List.mem_of_mem_take hm

theorem Recs.lose (h : Recs crc P d) (start n now : Nat)
    (hw : ∀ s ∈ (d.lose start n now).segs, mhas (d.lose start n now).writers s.start = false →
      ∃ ms, (∀ m ∈ ms, Fits m) ∧ s.data = records crc ms) : Recs crc P (d.lose start n now) := by
  intro s hs
  obtain ⟨ms, e1, e2⟩ := h.leak start n now s hs
  by_cases hc : s.start = start
  · have hn : mget (d.lose start n now).writers s.start = none := by rw [hc]; exact mget_mdel_same _ _
    obtain ⟨ms', f1, f2⟩ := hw s hs (by simp [mhas, hn])
    refine ⟨ms', by simp [Disk.buf, hn, f2], fun m hm => ⟨f1 m hm, ?_⟩⟩
    exact (e2 m (prefix_records e1 f2 (fun m hm => (e2 m hm).1) f1 m hm)).2
  · refine ⟨ms, ?_, e2⟩
    simp only [Disk.lose, Disk.buf, mget_mdel_ne _ hc]
    exact e1

theorem Recs.flushSome (h : Recs crc P d) (bad : List (Nat × Nat)) (now : Nat) : Recs crc P (d.flushSome bad now) := by
  unfold Disk.flushSome
  generalize mkeys d.writers = ks
  induction ks generalizing d with
  | nil => exact h
  | cons k ks ih =>
    simp only [List.foldl_cons]
    refine ih ?_
    split
    · exact h.leak _ _ _
    · exact h.flush _ _

theorem Recs.rollTo (h : Recs crc P d) (maxSegment : Nat) (c : Ctx) (m : Msg) (now : Nat) :
    Recs crc P (rollTo crc maxSegment d c m now).1 := by
  unfold Stream.rollTo
  split
  · exact h.close _ _
  · exact h

theorem coldLoop_all {Q : Msg → Prop} (ss : List Seg)
    (h : ∀ s ∈ ss, ∀ cur rem, 0 < rem → ∀ m ∈ readLog crc s.data cur rem, Q m) : ∀ (cur rem : Nat),
    ∀ m ∈ coldLoop crc ss cur rem, Q m := by
  induction ss with
  | nil => intro cur rem m hm; cases hm
  | cons s ss ih =>
    intro cur rem m hm
    unfold Stream.coldLoop at hm
    split at hm
    · cases hm
    · rcases List.mem_append.1 hm with hm | hm
      · exact h s List.mem_cons_self _ _ (by omega) m hm
      · exact ih (fun x hx => h x (List.mem_cons_of_mem _ hx)) _ _ m hm

theorem coldRead_all {Q : Msg → Prop} (ss : List Seg)
    (h : ∀ s ∈ ss, ∀ cur rem, 0 < rem → ∀ m ∈ readLog crc s.data cur rem, Q m) (fromSeq limit : Nat) :
    ∀ m ∈ coldRead crc ss fromSeq limit, Q m := by
  intro m hm
  unfold Stream.coldRead at hm
  split at hm
  · cases hm
  · split at hm
    · cases hm
    · next r hr => exact coldLoop_all r (fun s hs => h s (fromLast_mem hr s hs)) _ _ m hm

theorem Recs.coldRead_unreadable (h : Recs crc P d) (bad : List Nat) (fromSeq limit : Nat) :
    ∀ m ∈ Stream.coldRead crc (unreadable bad d.segs) fromSeq limit, P m := by
  refine coldRead_all _ (fun s hs cur rem hr m hm => ?_) fromSeq limit
  obtain ⟨s0, hs0, e⟩ := List.mem_map.1 hs
  split at e
  · rw [← e] at hm; cases hm
  · rw [← e] at hm; exact (h.readLog hs0 cur rem hr m hm).2

/-- What is pending stays as it is, except what a failure removes. -/
theorem Stored.fail (h : Stored crc P t) (x : Fault)
    (hw : (match x with | .noWrite .. | .noClose .. => True | _ => False) → ∀ s ∈ (t.fail crc x).disk.segs,
      mhas (t.fail crc x).disk.writers s.start = false → ∃ ms, (∀ m ∈ ms, Fits m) ∧ s.data = records crc ms) :
    Stored crc P (t.fail crc x) := by
  have hsub : ∀ c cs, t.chan = c :: cs → ∀ m ∈ chanMsgs cs, Fits m ∧ P m := fun c cs hc m hm => h.chan m (by
        rw [hc, show c :: cs = [c] ++ cs from rfl, chanMsgs_append]; exact List.mem_append_right _ hm)
  cases x with
  | noDir =>
    simp only [Topic.fail]
    split
    · next hc _ =>
      split
      · exact ⟨h.recs, h.log, hsub _ _ hc, h.sends, h.answers, h.reads⟩
      · exact h
    · exact h
  | noOpen now =>
    simp only [Topic.fail]
    split
    · next hc =>
      split
      · exact h
      · exact ⟨h.recs.rollTo _ _ _ _, h.log, hsub _ _ hc, h.sends, h.answers, h.reads⟩
    · exact h
  | noWrite n now =>
    simp only [Topic.fail] at hw ⊢
    split
    · next m cs hc =>
      rw [hc] at hw
      simp only at hw
      have hm := h.chan m (by rw [hc]; simp [chanMsgs])
      exact ⟨(((h.recs.rollTo _ _ _ _).openWriter _ _).write _ hm.1 hm.2).lose _ _ _ (hw trivial), h.log, hsub _ _ hc, h.sends, h.answers, h.reads⟩
    · exact h
  | noClose start n now =>
    exact ⟨h.recs.lose _ _ _ (hw trivial), h.log, h.chan, h.sends, h.answers, h.reads⟩
  | noFlush bad now =>
    simp only [Topic.fail, Topic.flushSome]
    split
    · exact ⟨h.recs.flushSome bad now, h.log, h.chan, h.sends, h.answers, h.reads⟩
    · exact ⟨h.recs.flushSome bad now, h.log, h.chan, h.sends, h.answers, h.reads⟩
  | noSave =>
    simp only [Topic.fail]
    split
    · next hc => exact ⟨h.recs, h.log, hsub _ _ hc, h.sends, h.answers, h.reads⟩
    · exact h
  | noRead bad =>
    simp only [Topic.fail]
    split
    · next id fr l cs hc =>
      refine ⟨h.recs, h.log, hsub _ _ hc, h.sends, ?_, h.reads⟩
      intro id' op ms ho hph m hm
      simp only [mget_mupd] at ho
      split at ho
      · next he =>
        cases hg : mget t.fetches id' with
        | none => rw [hg] at ho; cases ho
        | some op0 =>
          rw [hg] at ho
          simp only [Option.map_some, Option.some.injEq] at ho
          split at ho
          · rw [← ho] at hph
            simp only [Phase.answered.injEq] at hph
            rw [← hph] at hm
            exact h.recs.coldRead_unreadable bad fr l m hm
          · rw [← ho] at hph; exact h.answers id' op0 ms hg hph m hm
      · exact h.answers id' op ms ho hph m hm
    · next id fr l cs hc =>
      refine ⟨h.recs, h.log, hsub _ _ hc, h.sends, h.answers, ?_⟩
      intro id' ms hr m hm
      simp only [mget_mupd] at hr
      split at hr
      · cases hg : mget t.reads id' with
        | none => rw [hg] at hr; cases hr
        | some r0 =>
          rw [hg] at hr
          simp only [Option.map_some, Option.some.injEq] at hr
          rw [← hr] at hm
          exact h.recs.coldRead_unreadable bad fr l m hm
      · exact h.reads id' ms hr m hm
    · exact h

theorem restore_sub (soft head : Nat) (ms : List Msg) : ∀ m ∈ (Log.restore soft head ms).msgs, m ∈ ms := by
  intro m hm
  simpa [Log.restore] using hm

theorem Stored.restart (h : Stored crc P t) (lossy : Bytes → Str) (hw : WholeFiles crc t.disk.segs) :
    Stored crc P (t.restart crc lossy) := by
  have key : ∀ s ∈ t.disk.segs, ∃ ms, s.data = records crc ms ∧ ∀ m ∈ ms, Fits m ∧ P m := by
    intro s hs
    obtain ⟨ms, e1, e2⟩ := h.recs s hs
    obtain ⟨ms', f1, f2⟩ := hw s hs
    exact ⟨ms', f2, fun m hm => ⟨f1 m hm, (e2 m (prefix_records e1 f2 (fun m hm => (e2 m hm).1) f1 m hm)).2⟩⟩
  refine ⟨?_, ?_, ?_, ?_, ?_, ?_⟩
  · intro s hs
    obtain ⟨ms, e1, e2⟩ := key s hs
    exact ⟨ms, by simp [Topic.restart, Topic.build, Disk.buf, e1], e2⟩
  · intro m hm
    have hm' : m ∈ (Stream.recover crc lossy { t.disk with writers := [] }).msgs := restore_sub _ _ _ m hm
    simp only [Stream.recover] at hm'
    split at hm'
    · cases hm'
    · next s hs =>
      obtain ⟨ms, e1, e2⟩ := key s (List.mem_of_getLast? hs)
      have := loadLog_records crc (fun m hm => (e2 m hm).1) (rest := [])
      rw [List.append_nil, show loadLog crc [] = [] from rfl, List.append_nil] at this
      rw [e1, this] at hm'
      exact (e2 m hm').2
  · intro m hm; cases hm
  · intro m hm; cases hm
  · intro id op ms ho; cases ho
  · intro id ms ho; cases ho

theorem Stored.stepF (h : Stored crc P t) (e : Topic.FEv) (es : List Topic.FEv) (hn : NoTorn crc t (e :: es))
    (hp : ∀ m ∈ everPublished crc t (e :: es), Fits m ∧ P m) : Stored crc P (t.stepF crc e).1 := by
  cases e with
  | ev e =>
    refine h.step e fun m hm => hp m ?_
    cases e <;> first | (simp only [published] at hm; cases hm; done) | skip
    simp only [published] at hm
    exact List.mem_append_left _ hm
  | fault x =>
    refine h.fail x ?_
    cases x <;> first | (intro hh; cases hh; done) | (intro _; exact hn.1)
  | crash lossy => exact h.restart lossy hn.1

theorem Stored.runF (es : List Topic.FEv) : ∀ {t : Topic}, Stored crc P t → NoTorn crc t es →
    (∀ m ∈ everPublished crc t es, Fits m ∧ P m) → Stored crc P (t.runF crc es) := by
  induction es with
  | nil => intro t h _ _; exact h
  | cons e es ih =>
    intro t h hn hp
    exact ih (h.stepF e es hn hp) hn.2 (fun m hm => hp m (List.mem_append_right _ hm))

end Verif.Stream
