import Verif.Proofs.StreamLog
import Verif.Proofs.StreamTrace

/-!
# The start of a run, and runs
-/

namespace Verif.Stream

variable {crc : Bytes → Nat} {A : Prop} {base : Nat} {H : List Msg} {now : Nat} {t : Topic}

/-- Files in order, taken apart. -/
theorem InFiles.split {d : Disk} (h : InFiles crc A base H now d) :
    (d.segs = [] ∧ H = [] ∧ base = 1) ∨ ∃ pre l pp p, d.segs = pre ++ [l] ∧ H = pp.flatten ++ p ∧ p ≠ []
      ∧ Segs crc A now base pre l pp p [] := by
  obtain ⟨parts, hf, hH, hl, hb⟩ := h.files
  rcases snoc_cases parts with hp | ⟨pp, p, hp⟩
  · left
    subst hp
    have := hf.starts
    simp only [starts, List.map_eq_nil_iff] at this
    exact ⟨this, by rw [← hH]; rfl, hb rfl⟩
  · right
    subst hp
    have hs := hf.starts
    have hd := hf.data
    have hlen : d.segs.length = (pp ++ [p]).length := by
      have := congrArg List.length hs
      rwa [List.length_map, starts_length] at this
    rcases snoc_cases d.segs with he | ⟨pre, l, he⟩
    · rw [he] at hlen; simp at hlen
    · rw [he] at hs hd hlen
      simp only [List.length_append, List.length_singleton, Nat.add_right_cancel_iff] at hlen
      rw [List.map_append, starts_append] at hs
      rw [List.map_append, List.map_append] at hd
      have hs' := List.append_inj hs (by rw [List.length_map, starts_length, hlen])
      have hd' := List.append_inj hd (by rw [List.length_map, List.length_map, hlen])
      refine ⟨pre, l, pp, p, he, by rw [← hH]; simp, ?_, ?_⟩
      · intro hp0; apply hl; rw [hp0]; simp
      · refine ⟨hs'.1, by simpa [starts] using hs'.2, hd'.1, ?_, by simpa using hd'.2, fun a => ?_, fun a => ?_⟩
        · intro q hq
          exact hf.nonempty q (by simpa using hq)
        · rw [← he]; exact h.times a
        · rw [← he]; exact h.clock a

theorem InFiles.recover {d : Disk} (h : InFiles crc A base H now d) (lossy : Bytes → Str) {pre : List Seg} {l : Seg}
    {pp : List (List Msg)} {p : List Msg} (h1 : d.segs = pre ++ [l]) (h2 : H = pp.flatten ++ p)
    (hg : Segs crc A now base pre l pp p []) : (recover crc lossy d).msgs = p ∧ Numbered (base + pp.flatten.length) p
      ∧ d.headSeq = base := by
  have hn := h.numbered
  rw [h2] at hn
  have hf : ∀ m ∈ p, Fits m := fun m hm => h.fits m (by rw [h2]; exact List.mem_append_right _ hm)
  have hl := hg.lData
  rw [List.append_nil] at hl
  refine ⟨?_, hn.append.2, ?_⟩
  · simp only [Stream.recover, h1, List.getLast?_append, List.getLast?_singleton, Option.some_or]
    rw [hl]
    have := loadLog_records crc hf []
    rwa [List.append_nil, loadLog_torn crc takeRecord_nil, List.append_nil] at this
  · simp only [Disk.headSeq, h1]
    have hs := hg.preStarts
    cases pre with
    | nil =>
      cases pp with
      | nil => simpa using hg.lStart
      | cons q qs => simp [starts] at hs
    | cons x xs =>
      cases pp with
      | nil => simp [starts] at hs
      | cons q qs =>
        simp only [List.map_cons, starts, List.cons.injEq] at hs
        simpa using hs.1

theorem getLast_seq {g : Nat} {p : List Msg} (h : Numbered g p) (hp : p ≠ []) :
    p.getLast?.map (·.seq + 1) = some (g + p.length) := by
  rcases snoc_cases p with e | ⟨q, x, e⟩
  · exact absurd e hp
  · subst e
    have := h q.length x (by simp)
    simp only [List.getLast?_append, List.getLast?_singleton, Option.some_or, Option.map_some, List.length_append,
      List.length_singleton, this]
    congr 1

theorem head_seq {g : Nat} {p : List Msg} (h : Numbered g p) (hp : p ≠ []) : p.head?.map (·.seq) = some g := by
  cases p with
  | nil => exact absurd rfl hp
  | cons x q =>
    have := h 0 x rfl
    simp only [List.head?_cons, Option.map_some, this]
    congr 1

theorem InFiles.good {d : Disk} (h : InFiles crc A base H now d) (lossy : Bytes → Str) : GoodDisk crc lossy d := by
  rcases h.split with ⟨h1, h2, h3⟩ | ⟨pre, l, pp, p, h1, h2, h3, hg⟩
  · have hm : (Stream.recover crc lossy d).msgs = [] := by simp [Stream.recover, h1]
    refine ⟨?_, ?_, ?_⟩
    · intro i m m0 hi; rw [hm] at hi; simp at hi
    · intro m hi; rw [hm] at hi; cases hi
    · intro s hs; rw [h1] at hs; cases hs
  · obtain ⟨a1, a2, a3⟩ := h.recover lossy h1 h2 hg
    have hb := h.base1
    refine ⟨?_, ?_, ?_⟩
    · intro i m m0 hi h0
      rw [a1] at hi h0
      have e1 := a2 i m hi
      have e0 := a2 0 m0 (by rw [← h0]; cases p <;> rfl)
      omega
    · intro m hm
      rw [a1] at hm
      have := (a2.mem hm).1
      rw [a3]; omega
    · intro s hs
      rw [a1, getLast_seq a2 h3, Option.getD_some]
      rw [h1] at hs
      have hl := hg.lStart
      rcases List.mem_append.1 hs with hs | hs
      · have := hg.preLt hs; omega
      · rw [List.mem_singleton.1 hs]; omega

theorem StartsWith.inv (h : StartsWith crc base H now t) :
    TInv t ∧ DInv crc base H now t base H ∧ t.log.head = base ∧ 1 ≤ base := by
  obtain ⟨lossy, d, hd, ht⟩ := h
  have hti : TInv t := by rw [ht]; exact build_inv (hd.good lossy)
  have hb := hd.base1
  refine ⟨hti, ?_⟩
  generalize t.cfg = cfg at ht hd
  subst ht
  rcases hd.split with ⟨h1, h2, h3⟩ | ⟨pre, l, pp, p, h1, h2, h3, hg⟩
  · have hm : (Stream.recover crc lossy d).msgs = [] := by simp [Stream.recover, h1]
    have hh : (Stream.recover crc lossy d).head = 1 := by simp [Stream.recover, Disk.headSeq, h1]
    refine ⟨⟨.empty h1 rfl rfl h3 h2 ?_, ?_, Nat.le_refl _, ?_, hd.numbered, hd.fits, ?_, ?_, ?_, ?_, ?_, ?_, ?_⟩, ?_, hb⟩ <;>
      simp [Topic.build, hm, hh, Log.restore, chanMsgs, h2, h3]
  · obtain ⟨a1, a2, a3⟩ := hd.recover lossy h1 h2 hg
    have hh : (Stream.recover crc lossy d).head = base := a3
    have hlast := getLast_seq a2 h3
    have hfirst := head_seq a2 h3
    have hlen : H.length = pp.flatten.length + p.length := by rw [h2, List.length_append]
    have hnext : (Topic.build crc cfg lossy d).log.next = base + H.length := by
      simp only [Topic.build, Log.restore, a1, hlast, Option.getD_some, hlen]; omega
    have hram : (Topic.build crc cfg lossy d).log.ramStart = base + pp.flatten.length := by
      simp only [Topic.build, Log.restore, a1, hfirst, Option.getD_some]
    have hhead : (Topic.build crc cfg lossy d).log.head = base := by
      simp only [Topic.build, Log.restore, hh]; omega
    have hper : (Topic.build crc cfg lossy d).persisted + 1 = base + H.length := by
      have : (Topic.build crc cfg lossy d).persisted = (Topic.build crc cfg lossy d).log.next - 1 := rfl
      rw [this, hnext]; omega
    have hpos := List.length_pos_iff.mpr h3
    refine ⟨⟨?_, ?_, Nat.le_refl _, ?_, hd.numbered, hd.fits, hnext, ?_, ?_, ?_, ?_, ?_, ?_⟩, hhead, hb⟩
    · refine .files pre l pp p [] h1 h2 hg
        (.inl ⟨rfl, rfl⟩) (fun _ => rfl) (fun c hc => by cases hc) ?_ ?_
      · rw [hper, hg.lStart]; omega
      · intro j hj _
        have hl := hg.lData
        rw [List.append_nil] at hl
        rw [hl]
        have : records crc p = records crc (p.take j) ++ records crc (p.drop j) := by
          rw [← records_append, List.take_append_drop]
        rw [this, List.length_append]
        omega
    · simp [Topic.build, chanMsgs]
    · omega
    · have : (Topic.build crc cfg lossy d).log.msgs = p := a1
      rw [this, h2]; exact List.suffix_append _ _
    · rw [hram, hhead]; omega
    · rw [hhead]; exact Nat.le_refl _
    · rw [hhead]; exact Nat.le_refl _
    · intro p hp; cases hp
    · intro h hh; cases hh

/-! ### Runs -/

theorem published_append (n : Nat) (a b : List Ev) :
    published n (a ++ b) = published n a ++ published (n + (published n a).length) b := by
  induction a generalizing n with
  | nil => simp [published]
  | cons e a ih =>
    cases e <;> simp only [List.cons_append, published, ih, List.length_cons]
    rw [show n + 1 + (published (n + 1) a).length = n + ((published (n + 1) a).length + 1) by omega]

theorem Forward.append {now : Nat} {a b : List Ev} : Forward now (a ++ b) ↔ Forward now a ∧ Forward (clockAfter now a) b := by
  induction a generalizing now with
  | nil => simp [Forward, clockAfter]
  | cons e a ih => simp only [List.cons_append, Forward, clockAfter, ih, and_assoc]

theorem clockAfter_append (now : Nat) (a b : List Ev) : clockAfter now (a ++ b) = clockAfter (clockAfter now a) b := by
  induction a generalizing now with
  | nil => rfl
  | cons e a ih => exact ih _

theorem DInv.run {f : Nat} {W : List Msg} {clock : Nat} (hd : DInv crc base H clock t f W) (hi : TInv t) (es : List Ev)
    (ho : Orderly clock t es) :
    ∃ f' W', f ≤ f' ∧ t.persisted ≤ (t.run crc es).persisted
      ∧ DInv crc base (H ++ published t.log.next es) (clockAfter clock es) (t.run crc es) f' W' := by
  induction es generalizing t H clock f W with
  | nil => exact ⟨f, W, Nat.le_refl _, Nat.le_refl _, by simpa [published, clockAfter, Topic.run] using hd⟩
  | cons e es ih =>
    have hp : published t.log.next (e :: es) = published t.log.next [e] ++ published (t.log.next + (published t.log.next [e]).length) es :=
      published_append t.log.next [e] es
    have hfit := ho.fits
    rw [hp] at hfit
    obtain ⟨f', W', ⟨h1, _⟩, h2, h3⟩ := hd.step hi e (fun i h => ho.inOrder i (by rw [h]; exact List.mem_cons_self))
      (fun ha => (ho.clock ha).1) (fun m hm => hfit m (List.mem_append_left _ hm))
    have hnext : (t.step crc e).1.log.next = t.log.next + (published t.log.next [e]).length := by
      rw [h3.next, hd.next, List.length_append]; omega
    have hcfg : (t.step crc e).1.cfg = t.cfg := run_cfg crc [e] t
    obtain ⟨f'', W'', g1, g2, g3⟩ := ih h3 (hi.step crc e)
      ⟨fun i hi => ho.inOrder i (List.mem_cons_of_mem _ hi), fun ha => (ho.clock (hcfg ▸ ha)).2, fun m hm => by
        rw [hnext] at hm
        exact hfit m (List.mem_append_right _ hm)⟩
    refine ⟨f'', W'', by omega, by simp only [Topic.run]; omega, ?_⟩
    rw [hp, ← List.append_assoc]
    rw [hnext] at g3
    exact g3

theorem Orderly.prefix {now : Nat} {t : Topic} {a b : List Ev} (h : Orderly now t (a ++ b)) : Orderly now t a :=
  ⟨fun i hi => h.inOrder i (List.mem_append_left _ hi), fun ha => (Forward.append.1 (h.clock ha)).1, fun m hm =>
    h.fits m (by rw [published_append]; exact List.mem_append_left _ hm)⟩

theorem Orderly.suffix {now : Nat} {t : Topic} {a b : List Ev} (h : Orderly now t (a ++ b))
    (hn : (t.run crc a).log.next = t.log.next + (published t.log.next a).length) :
    Orderly (clockAfter now a) (t.run crc a) b :=
  ⟨fun i hi => h.inOrder i (List.mem_append_right _ hi), fun ha => by
      rw [run_cfg] at ha
      exact (Forward.append.1 (h.clock ha)).2, fun m hm => by
    rw [hn] at hm
    exact h.fits m (by rw [published_append]; exact List.mem_append_right _ hm)⟩

/-- Everything that is in the log after the history `es`. -/
theorem StartsWith.run (h : StartsWith crc base H now t) (es : List Ev) (ho : Orderly now t es) :
    TInv (t.run crc es) ∧ 1 ≤ base ∧ ∃ f W,
      DInv crc base (H ++ published t.log.next es) (clockAfter now es) (t.run crc es) f W := by
  obtain ⟨h1, h2, _, h3⟩ := h.inv
  obtain ⟨f, W, _, _, hh⟩ := h2.run h1 es ho
  exact ⟨h1.run crc es, h3, f, W, hh⟩

end Verif.Stream
