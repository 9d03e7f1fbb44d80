import Verif.Proofs.StreamRead

/-!
# Restarts
-/

namespace Verif.Stream

variable {crc : Bytes → Nat} {A : Prop} {base : Nat} {H : List Msg} {now clock : Nat} {t : Topic} {f : Nat} {W : List Msg}
  {d : Disk} {ctx : Option Ctx} {persisted : Nat}

theorem Holds.last {g : Nat} {ss : List Seg} {qs : List (List Msg)} (h : Holds crc g ss qs) (hf : ∀ m ∈ qs.flatten, Fits m)
    (hs : ss ≠ []) : ∃ l pq q, ss.getLast? = some l ∧ qs = pq ++ [q] ∧ loadLog crc l.data = q := by
  induction ss generalizing g qs with
  | nil => exact absurd rfl hs
  | cons s ss ih =>
    cases qs with
    | nil => exact absurd h (by simp [Holds])
    | cons q qs =>
      obtain ⟨h1, ⟨torn, h2, h3⟩, h4⟩ := h
      by_cases hss : ss = []
      · subst hss
        have : qs = [] := by
          cases qs with
          | nil => rfl
          | cons q qs => exact absurd h4 (by simp [Holds])
        subst this
        refine ⟨s, [], q, rfl, rfl, ?_⟩
        rw [h2, loadLog_records crc (fun m hm => hf m (by simp [hm])), loadLog_torn crc h3, List.append_nil]
      · obtain ⟨l, pq, q', a1, a2, a3⟩ := ih h4 (fun m hm => hf m (by simp only [List.flatten_cons, List.mem_append]; exact .inr hm)) hss
        refine ⟨l, q :: pq, q', ?_, by rw [a2]; rfl, a3⟩
        rw [List.getLast?_cons, a1]
        rfl

theorem Holds.headSeq {g : Nat} {qs : List (List Msg)} (h : Holds crc g d.segs qs) (hs : d.segs ≠ []) : d.headSeq = g := by
  unfold Disk.headSeq
  cases hd : d.segs with
  | nil => exact absurd hd hs
  | cons s ss =>
    rw [hd] at h
    cases qs with
    | nil => exact absurd h (by simp [Holds])
    | cons q qs => exact h.1

/-- The log after a restart, if the newest segment holds a complete record. -/
theorem Holds.built {g : Nat} {qs : List (List Msg)} (h : Holds crc g d.segs qs) (hf : ∀ m ∈ qs.flatten, Fits m)
    (hn : Numbered g qs.flatten) (hg : 1 ≤ g) (hs : d.segs ≠ []) (hr : SomeRecord crc d) (cfg : Cfg) (lossy : Bytes → Str) :
    ∃ pq q, qs = pq ++ [q] ∧ q ≠ [] ∧ (Topic.build crc cfg lossy d).log.msgs = q
      ∧ (Topic.build crc cfg lossy d).log.ramStart = g + pq.flatten.length
      ∧ (Topic.build crc cfg lossy d).log.next = g + qs.flatten.length
      ∧ (Topic.build crc cfg lossy d).log.head = g := by
  obtain ⟨l, pq, q, h1, h2, h3⟩ := h.last hf hs
  have hq : q ≠ [] := h3 ▸ hr l h1
  have hm : (Stream.recover crc lossy d).msgs = q := by simp only [Stream.recover, h1, h3]
  have hh : (Stream.recover crc lossy d).head = g := h.headSeq hs
  rw [h2, List.flatten_append] at hn
  have hn2 := hn.append.2
  simp only [List.flatten_cons, List.flatten_nil, List.append_nil] at hn2
  refine ⟨pq, q, h2, hq, hm, ?_, ?_, ?_⟩
  · simp only [Topic.build, Log.restore, hm, head_seq hn2 hq, Option.getD_some]
  · simp only [Topic.build, Log.restore, hm, getLast_seq hn2 hq, Option.getD_some, h2, List.flatten_append, List.length_append,
      List.flatten_cons, List.flatten_nil, List.append_nil]
    omega
  · simp only [Topic.build, Log.restore, hh]; omega

/-- After a restart everything in the files can be read. -/
theorem Holds.readable {g : Nat} {qs : List (List Msg)} (h : Holds crc g d.segs qs) (hf : ∀ m ∈ qs.flatten, Fits m)
    (hn : Numbered g qs.flatten) (hg : 1 ≤ g) (hr : SomeRecord crc d) (cfg : Cfg) (lossy : Bytes → Str) {m : Msg}
    (hm : m ∈ qs.flatten) : Readable crc (Topic.build crc cfg lossy d) m := by
  have hs : d.segs ≠ [] := by
    intro hs
    rw [hs] at h
    cases qs with
    | nil => simp at hm
    | cons q qs => exact absurd h (by simp [Holds])
  obtain ⟨pq, q, h2, hq, h3, h4, h5, h6⟩ := h.built hf hn hg hs hr cfg lossy
  obtain ⟨i, hi, hmi⟩ := List.getElem_of_mem hm
  have hseq := hn i m (by rw [List.getElem?_eq_getElem hi, hmi])
  have hcold := coldRead_holds (crc := crc) m.seq 1 hs h hn hf
  have hone : (qs.flatten.drop (m.seq - g)).take 1 = [m] := by
    rw [List.take_one, List.head?_drop, show m.seq - g = i by omega, List.getElem?_eq_getElem hi, hmi]; rfl
  have hlen : qs.flatten.length = pq.flatten.length + q.length := by
    rw [h2, List.flatten_append, List.length_append]; simp
  have heff : max m.seq (Topic.build crc cfg lossy d).log.head = m.seq := by rw [h6]; omega
  have heff2 : max (max m.seq (Topic.build crc cfg lossy d).log.head) 1 = m.seq := by rw [h6]; omega
  by_cases hram : g + pq.flatten.length ≤ m.seq
  · left
    have hread : (Topic.build crc cfg lossy d).log.read m.seq 1 = [m] := by
      unfold Log.read
      rw [heff2, h4, h3, if_pos]
      · rw [← hone, h2, List.flatten_append, List.drop_append, List.drop_of_length_le (l := pq.flatten) (by omega)]
        simp only [List.flatten_cons, List.flatten_nil, List.append_nil, List.nil_append]
        congr 2
        omega
      · simp only [Bool.and_eq_true, decide_eq_true_eq, Bool.not_eq_true', List.isEmpty_eq_false_iff]
        exact ⟨⟨hram, hq⟩, by omega⟩
    refine ⟨(Topic.build crc cfg lossy d).nextOp, ?_⟩
    simp only [Topic.step, Topic.startRead, heff, hread]
    rfl
  · right
    have hread : (Topic.build crc cfg lossy d).log.read m.seq 1 = [] := by
      unfold Log.read
      rw [heff2, h4, if_neg]
      simp only [Bool.and_eq_true, decide_eq_true_eq]
      omega
    have hcond : (([] : List Msg).isEmpty && decide (m.seq < (Topic.build crc cfg lossy d).log.ramStart)
        && decide (m.seq < (Topic.build crc cfg lossy d).log.next)) = true := by
      rw [h4, h5]
      simp only [List.isEmpty_nil, Bool.true_and, Bool.and_eq_true, decide_eq_true_eq]
      omega
    have hstart : (Topic.build crc cfg lossy d).step crc (.read m.seq 1)
        = ({ Topic.build crc cfg lossy d with nextOp := 1, reads := [(0, none)], chan := [.coldRead 0 m.seq 1] }, .none) := by
      simp only [Topic.step, Topic.startRead, heff, hread, hcond, if_true]
      rfl
    refine ⟨by rw [hstart], fun time => ?_⟩
    have hnx : (Topic.build crc cfg lossy d).nextOp = 0 := rfl
    have hread2 : mget ((Topic.build crc cfg lossy d).run crc [.read m.seq 1, .storage time]).reads 0
        = some (some (coldRead crc d.segs m.seq 1)) := by
      show mget (Topic.step crc ((Topic.build crc cfg lossy d).step crc (.read m.seq 1)).1 (.storage time)).1.reads 0 = _
      rw [hstart]
      simp only [Topic.step, Topic.handle, mget_mupd, if_true, mget_cons]
      rfl
    rw [hnx]
    show (Topic.step crc _ (.readDone 0)).2 = _
    simp only [Topic.step]
    rw [hread2, hcold, hone]

/-! ### The files at the moment of a crash -/

/-- A message of the log, found in the files. -/
theorem DInv.flushedAt (hd : DInv crc base H clock t f W) {m : Msg} (hm : m ∈ H) (hf : f ≤ m.seq) {D : Nat}
    (hD : D ≤ W.length) (hlt : m.seq < f + D) : m ∈ W.take D := by
  obtain ⟨i, hi', hmi⟩ := List.getElem_of_mem hm
  have hseq := hd.num i m (by rw [List.getElem?_eq_getElem hi', hmi])
  have hlow := hd.low
  have hW : (H.drop (f - base))[m.seq - f]? = some m := by
    rw [List.getElem?_drop, show f - base + (m.seq - f) = i by omega, List.getElem?_eq_getElem hi', hmi]
  have hW' : W[m.seq - f]? = some m := by
    rw [← hd.flow, List.getElem?_append_left (by omega)] at hW; exact hW
  have hT : (W.take D)[m.seq - f]? = some m := by rw [List.getElem?_take, if_pos (by omega)]; exact hW'
  exact List.mem_of_getElem? hT

theorem Numbered.take {g : Nat} {a : List Msg} (h : Numbered g a) (k : Nat) : Numbered g (a.take k) := by
  have : a = a.take k ++ a.drop k := (List.take_append_drop k a).symm
  rw [this] at h
  exact h.append.1

theorem CleanStop.some {d : Disk} (h : CleanStop crc d) : SomeRecord crc d := by
  intro s hs
  obtain ⟨ms, h1, h2, h3⟩ := h s hs
  have := loadLog_records crc h2 []
  rw [List.append_nil, loadLog_torn crc takeRecord_nil, List.append_nil] at this
  rw [h3, this]
  exact h1

/-- After a clean stop the files are in order. -/
theorem DiskInv.clean (h : DiskInv crc A clock f W d ctx persisted) (hf : ∀ m ∈ W, Fits m) (hn : Numbered f W) (h1 : 1 ≤ f)
    (hc : CleanStop crc d) : ∃ D, D ≤ W.length ∧ persisted + 1 ≤ f + D ∧ InFiles crc A f (W.take D) clock d := by
  cases h with
  | empty h1 h2 h3 h4 h5 h6 =>
    refine ⟨0, Nat.zero_le _, by omega, ⟨[], ⟨by rw [h1]; rfl, by rw [h1]; rfl, by simp⟩, by simp, by simp, fun _ => h4⟩,
      by omega, hn.take 0, by simp, by rw [h1]; simp, by rw [h1]; simp⟩
  | files pre l pp p buf h1 h2 h3 h4 h5 h6 h7 h8 =>
    have hfp : ∀ m ∈ p, Fits m := fun m hm => hf m (by rw [h2]; exact List.mem_append_right _ hm)
    obtain ⟨k, torn, c1, c2, c3, c4, c5, _⟩ := cut crc hfp l.data.length
    have hl : l.data = (records crc p).take l.data.length := by
      rw [← h3.lData]; simp
    have hk : persisted + 1 ≤ l.start + k := by
      by_cases hj : persisted + 1 ≤ l.start
      · omega
      · have hj2 : persisted + 1 - l.start ≤ p.length := by omega
        have := cut_ge c5 hj2 (h8 _ hj2 (by omega))
        omega
    obtain ⟨ms, m1, m2, m3⟩ := hc l (by rw [h1]; simp)
    have hms : ms = p.take k := by
      have e1 := loadLog_records crc m2 []
      rw [List.append_nil, loadLog_torn crc takeRecord_nil, List.append_nil, ← m3, hl, c2,
        loadLog_records crc (fun m hm => hfp m (List.mem_of_mem_take hm)), loadLog_torn crc c3, List.append_nil] at e1
      exact e1.symm
    have hW : W.take (pp.flatten.length + k) = pp.flatten ++ p.take k := by
      rw [h2, List.take_append, List.take_of_length_le (Nat.le_add_right _ _)]
      simp
    refine ⟨pp.flatten.length + k, ?_, ?_, ⟨pp ++ [p.take k], ⟨?_, ?_, ?_⟩, ?_, ?_, ?_⟩, by omega, hn.take _,
      fun m hm => hf m (List.mem_of_mem_take hm), fun a => ?_, fun a => ?_⟩
    · rw [h2, List.length_append]; omega
    · rw [h3.lStart] at hk; omega
    · rw [h1, List.map_append, starts_append, h3.preStarts]
      simp [starts, h3.lStart]
    · rw [h1, List.map_append, List.map_append, h3.preData]
      simp [m3, hms]
    · simpa using h3.preNonempty
    · rw [hW]; simp
    · simp only [List.getLast?_append, List.getLast?_singleton, Option.some_or, ne_eq, Option.some.injEq]
      rw [← hms]; exact m1
    · intro h; simp at h
    · rw [h1]; exact h3.times a
    · rw [h1]; exact h3.clocked a

theorem InFiles.noWriters {d : Disk} (h : InFiles crc A base H now d) : InFiles crc A base H now { d with writers := [] } :=
  ⟨h.files, h.base1, h.numbered, h.fits, h.times, h.clock⟩

/-- A run that ends with a clean stop is followed by an orderly start; what was flushed is there. -/
theorem StartsWith.next (hst : StartsWith crc base H now t) (es : List Ev) (ho : Orderly now t es)
    (hc : CleanStop crc (t.run crc es).disk) (lossy : Bytes → Str) :
    ∃ base' H', StartsWith crc base' H' (clockAfter now es) ((t.run crc es).restart crc lossy) ∧ base ≤ base'
      ∧ (∀ m ∈ H ++ published t.log.next es, m.seq ≤ (t.run crc es).persisted → m ∈ H' ∨ m.seq < base')
      ∧ ∀ m ∈ H', m ∈ H ++ published t.log.next es := by
  obtain ⟨hi, hb, f, W, hd⟩ := hst.run es ho
  have hlow := hd.low
  obtain ⟨D, h1, h2, h3⟩ := hd.disk.clean hd.fitsW hd.numW (by omega) hc
  refine ⟨f, W.take D, ⟨lossy, _, h3.noWriters, rfl⟩, hlow, fun m hm hp => ?_, fun m hm => hd.mem_log (List.mem_of_mem_take hm)⟩
  by_cases hf : m.seq < f
  · exact .inr hf
  · exact .inl (hd.flushedAt hm (by omega) h1 (by omega))

/-- What is in the files at the start of a run counts as flushed. -/
theorem StartsWith.flushed (hst : StartsWith crc base H now t) (es : List Ev) (ho : Orderly now t es) :
    base + H.length ≤ (t.run crc es).persisted + 1 := by
  obtain ⟨h1, h2, h3, h4⟩ := hst.inv
  obtain ⟨f, W, _, hp, _⟩ := h2.run h1 es ho
  have : t.persisted = t.log.next - 1 := by
    obtain ⟨lossy, d, _, ht⟩ := hst
    rw [ht]; rfl
  have := h2.next
  omega

theorem StartsWith.lives (hst : StartsWith crc base H now t) (rs : List (List Ev × (Bytes → Str)))
    (hr : CleanRuns crc now t rs) : ∃ base' H' now', StartsWith crc base' H' now' (t.lives crc rs) ∧ base ≤ base'
      ∧ (∀ m ∈ H, m ∈ H' ∨ m.seq < base') := by
  induction rs generalizing t base H now with
  | nil => exact ⟨base, H, now, hst, Nat.le_refl _, fun m hm => .inl hm⟩
  | cons r rs ih =>
    obtain ⟨es, lossy⟩ := r
    obtain ⟨ho, hc, hrs⟩ := hr
    obtain ⟨b1, H1, g1, g2, g3, _⟩ := hst.next es ho hc lossy
    obtain ⟨b2, H2, n2, k1, k2, k3⟩ := ih g1 hrs
    refine ⟨b2, H2, n2, k1, Nat.le_trans g2 k2, fun m hm => ?_⟩
    have hfl := hst.flushed es ho
    obtain ⟨_, hd, _, _⟩ := hst.inv
    obtain ⟨i, hi', hmi⟩ := List.getElem_of_mem hm
    have hseq := hd.num i m (by rw [List.getElem?_eq_getElem hi', hmi])
    rcases g3 m (List.mem_append_left _ hm) (by omega) with h | h
    · exact k3 m h
    · exact .inr (by omega)

theorem CleanRuns.append {rs rs' : List (List Ev × (Bytes → Str))} (h : CleanRuns crc now t (rs ++ rs')) :
    CleanRuns crc now t rs ∧ ∃ now', (∀ base H, StartsWith crc base H now t → ∃ base' H', StartsWith crc base' H' now' (t.lives crc rs))
      ∧ CleanRuns crc now' (t.lives crc rs) rs' := by
  induction rs generalizing t now with
  | nil => exact ⟨trivial, now, fun b H hs => ⟨b, H, hs⟩, h⟩
  | cons r rs ih =>
    obtain ⟨es, lossy⟩ := r
    obtain ⟨ho, hc, hrs⟩ := h
    obtain ⟨h1, n, h2, h3⟩ := ih hrs
    refine ⟨⟨ho, hc, h1⟩, n, fun b H hs => ?_, h3⟩
    obtain ⟨b1, H1, g1, _⟩ := hs.next es ho hc lossy
    exact h2 b1 H1 g1

theorem InFiles.holds {d : Disk} (h : InFiles crc A base H now d) : ∃ qs, Holds crc base d.segs qs ∧ qs.flatten = H := by
  obtain ⟨parts, hf, hH, _, _⟩ := h.files
  refine ⟨parts, ?_, hH⟩
  have key : ∀ (ss : List Seg) (qs : List (List Msg)) (g : Nat), ss.map (·.start) = starts g qs →
      ss.map (·.data) = qs.map (records crc) → Holds crc g ss qs := by
    intro ss
    induction ss with
    | nil =>
      intro qs g h1 h2
      cases qs with
      | nil => trivial
      | cons q qs => simp [starts] at h1
    | cons s ss ih =>
      intro qs g h1 h2
      cases qs with
      | nil => simp [starts] at h1
      | cons q qs =>
        simp only [List.map_cons, starts, List.cons.injEq] at h1 h2
        exact ⟨h1.1, ⟨[], by rw [List.append_nil]; exact h2.1, rfl⟩, ih qs _ h1.2 h2.2⟩
  exact key _ _ _ hf.starts hf.data

theorem InFiles.some {d : Disk} (h : InFiles crc A base H now d) : SomeRecord crc d := by
  rcases h.split with ⟨h1, _, _⟩ | ⟨pre, l, pp, p, h1, h2, h3, hg⟩
  · intro s hs; rw [h1] at hs; cases hs
  · intro s hs
    rw [h1] at hs
    simp only [List.getLast?_append, List.getLast?_singleton, Option.some_or, Option.some.injEq] at hs
    obtain ⟨a1, _, _⟩ := h.recover id h1 h2 hg
    rw [← hs]
    simp only [Stream.recover, h1, List.getLast?_append, List.getLast?_singleton, Option.some_or] at a1
    rw [a1]; exact h3

theorem StartsWith.readable (hst : StartsWith crc base H now t) {m : Msg} (hm : m ∈ H) : Readable crc t m := by
  obtain ⟨lossy, d, hd, ht⟩ := hst
  obtain ⟨qs, h1, h2⟩ := hd.holds
  rw [ht]
  exact h1.readable (h2 ▸ hd.fits) (h2 ▸ hd.numbered) hd.base1 hd.some _ _ (h2 ▸ hm)

end Verif.Stream
