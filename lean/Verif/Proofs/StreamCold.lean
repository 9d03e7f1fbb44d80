import Verif.Proofs.StreamDurable

/-!
# Reading from the files
-/

namespace Verif.Stream

variable {crc : Bytes → Nat} {A : Prop} {clock f : Nat} {W : List Msg} {d : Disk} {ctx : Option Ctx} {persisted : Nat}

/-- The segments hold the complete records of `parts`, the first of which is number `g`. -/
def Holds (crc : Bytes → Nat) : Nat → List Seg → List (List Msg) → Prop
  | _, [], [] => True
  | g, s :: ss, q :: qs => s.start = g ∧ (∃ torn, s.data = records crc q ++ torn ∧ takeRecord torn = none)
      ∧ Holds crc (g + q.length) ss qs
  | _, _, _ => False

theorem Numbered.append {g : Nat} {a b : List Msg} (h : Numbered g (a ++ b)) : Numbered g a ∧ Numbered (g + a.length) b := by
  refine ⟨fun i m hi => ?_, fun i m hi => ?_⟩
  · have hlt := (List.getElem?_eq_some_iff.1 hi).1
    exact h i m (by rw [List.getElem?_append_left hlt]; exact hi)
  · have := h (a.length + i) m (by rw [List.getElem?_append_right (by omega)]; simpa using hi)
    omega

theorem Numbered.mem {g : Nat} {a : List Msg} (h : Numbered g a) {m : Msg} (hm : m ∈ a) :
    g ≤ m.seq ∧ m.seq < g + a.length := WindowOk.mem (ms := a) (rs := g) h hm

theorem Numbered.filter {g : Nat} {a : List Msg} (h : Numbered g a) (cur : Nat) :
    a.filter (fun m => decide (cur ≤ m.seq)) = a.drop (cur - g) := by
  induction a generalizing g with
  | nil => simp
  | cons m a ih =>
    have hm : m.seq = g := by simpa using h 0 m rfl
    have ht : Numbered (g + 1) a := fun i x hx => by have := h (i + 1) x (by simpa using hx); omega
    by_cases hc : cur ≤ m.seq
    · rw [List.filter_cons_of_pos (by simpa using hc), ih ht, show cur - g = 0 by omega, show cur - (g + 1) = 0 by omega]
      rfl
    · rw [List.filter_cons_of_neg (by simpa using hc), ih ht, show cur - g = (cur - (g + 1)) + 1 by omega]
      rfl

/-- The loop over the segments gets all messages from `cur` on, up to the limit. -/
theorem coldLoop_holds (ss : List Seg) : ∀ (qs : List (List Msg)) (g cur rem : Nat), Holds crc g ss qs →
    Numbered g qs.flatten → (∀ m ∈ qs.flatten, Fits m) →
    coldLoop crc ss cur rem = (qs.flatten.filter (fun m => decide (cur ≤ m.seq))).take rem := by
  induction ss with
  | nil =>
    intro qs g cur rem h _ _
    cases qs with
    | nil => simp [coldLoop]
    | cons q qs => exact absurd h (by simp [Holds])
  | cons s ss ih =>
    intro qs g cur rem h hn hf
    cases qs with
    | nil => exact absurd h (by simp [Holds])
    | cons q qs =>
      obtain ⟨_, ⟨torn, hd, ht⟩, hrest⟩ := h
      rw [List.flatten_cons] at hn hf
      obtain ⟨n1, n2⟩ := hn.append
      unfold coldLoop
      by_cases hr : rem = 0
      · rw [if_pos hr, hr, List.take_zero]
      · rw [if_neg hr]
        have hread : readLog crc s.data cur rem = (q.filter (fun m => decide (cur ≤ m.seq))).take rem := by
          rw [hd]
          exact readLog_records crc cur rem (fun m hm => hf m (List.mem_append_left _ hm)) ht (by omega)
        rw [hread, List.flatten_cons, List.filter_append, List.take_append]
        rw [ih qs (g + q.length) _ _ hrest n2 (fun m hm => hf m (List.mem_append_right _ hm))]
        congr 1
        have hlen : rem - ((q.filter (fun m => decide (cur ≤ m.seq))).take rem).length
            = rem - (q.filter (fun m => decide (cur ≤ m.seq))).length := by
          rw [List.length_take]; omega
        rw [hlen]
        -- later messages are all wanted
        by_cases he : (q.filter (fun m => decide (cur ≤ m.seq))).take rem = []
        · rw [he]; rfl
        · by_cases hfull : rem ≤ (q.filter (fun m => decide (cur ≤ m.seq))).length
          · rw [show rem - (q.filter (fun m => decide (cur ≤ m.seq))).length = 0 by omega, List.take_zero, List.take_zero]
          · have hall : ∀ c, c ≤ g + q.length → qs.flatten.filter (fun m => decide (c ≤ m.seq)) = qs.flatten := by
              intro c hc
              apply List.filter_eq_self.mpr
              intro m hm
              have := (n2.mem hm).1
              simp only [decide_eq_true_eq]; omega
            have hmemlt : ∀ m ∈ (q.filter (fun m => decide (cur ≤ m.seq))).take rem, cur ≤ m.seq ∧ m.seq < g + q.length := by
              intro m hm
              have hm := List.mem_filter.1 (List.mem_of_mem_take hm)
              exact ⟨by simpa using hm.2, (n1.mem hm.1).2⟩
            have h1 : advanceFrom cur ((q.filter (fun m => decide (cur ≤ m.seq))).take rem) ≤ g + q.length := by
              unfold advanceFrom
              cases hl : ((q.filter (fun m => decide (cur ≤ m.seq))).take rem).getLast? with
              | none => exact absurd (List.getLast?_eq_none_iff.1 hl) he
              | some x =>
                have := (hmemlt x (List.mem_of_getLast? hl)).2
                simp only [Option.map_some, Option.getD_some]; omega
            have h2 : cur ≤ g + q.length := by
              cases hl : (q.filter (fun m => decide (cur ≤ m.seq))).take rem with
              | nil => exact absurd hl he
              | cons x xs => have := hmemlt x (by rw [hl]; exact List.mem_cons_self); omega
            rw [hall _ h1, hall _ h2]

theorem fromLast_none {cur : Nat} {ss : List Seg} (h : ∀ s ∈ ss, cur < s.start) : fromLast cur ss = none := by
  induction ss with
  | nil => rfl
  | cons s t ih =>
    have := h s List.mem_cons_self
    simp only [fromLast, ih (fun x hx => h x (List.mem_cons_of_mem _ hx))]
    rw [if_neg (by omega)]

theorem Holds.ge {g : Nat} {ss : List Seg} {qs : List (List Msg)} (h : Holds crc g ss qs) {s : Seg} (hs : s ∈ ss) :
    g ≤ s.start := by
  induction ss generalizing g qs with
  | nil => cases hs
  | cons x ss ih =>
    cases qs with
    | nil => exact absurd h (by simp [Holds])
    | cons q qs =>
      obtain ⟨h1, _, h3⟩ := h
      rcases List.mem_cons.1 hs with hs | hs
      · rw [hs]; omega
      · have := ih h3 hs; omega

theorem fromLast_holds (ss : List Seg) : ∀ (qs : List (List Msg)) (g cur rem : Nat), ss ≠ [] → g ≤ cur → Holds crc g ss qs →
    Numbered g qs.flatten → (∀ m ∈ qs.flatten, Fits m) →
    ∃ r, fromLast cur ss = some r
      ∧ coldLoop crc r cur rem = (qs.flatten.filter (fun m => decide (cur ≤ m.seq))).take rem := by
  induction ss with
  | nil => intro qs g cur rem h; exact absurd rfl h
  | cons s ss ih =>
    intro qs g cur rem _ hg h hn hf
    cases qs with
    | nil => exact absurd h (by simp [Holds])
    | cons q qs =>
      have h0 := h
      obtain ⟨h1, h2, h3⟩ := h
      have hn0 := hn
      rw [List.flatten_cons] at hn
      obtain ⟨n1, n2⟩ := hn.append
      by_cases hne : ss ≠ [] ∧ g + q.length ≤ cur
      · obtain ⟨r, e1, e2⟩ := ih qs (g + q.length) cur rem hne.1 hne.2 h3 n2
          (fun m hm => hf m (by rw [List.flatten_cons]; exact List.mem_append_right _ hm))
        refine ⟨r, ?_, ?_⟩
        · simp only [fromLast, e1]
        · have hq : q.filter (fun m => decide (cur ≤ m.seq)) = [] := by
            apply List.filter_eq_nil_iff.mpr
            intro m hm
            have := (n1.mem hm).2
            simp only [decide_eq_true_eq]; omega
          rw [e2, List.flatten_cons, List.filter_append, hq, List.nil_append]
      · have hnone : fromLast cur ss = none := by
          apply fromLast_none
          intro x hx
          have := h3.ge hx
          have hss : ss ≠ [] := List.ne_nil_of_mem hx
          have : ¬ g + q.length ≤ cur := fun h => hne ⟨hss, h⟩
          omega
        refine ⟨s :: ss, ?_, coldLoop_holds _ _ g _ _ h0 hn0 hf⟩
        simp only [fromLast, hnone]
        rw [if_pos (by omega)]

theorem coldRead_holds {ss : List Seg} {qs : List (List Msg)} {g : Nat} (fromSeq limit : Nat) (hne : ss ≠ [])
    (h : Holds crc g ss qs) (hn : Numbered g qs.flatten) (hf : ∀ m ∈ qs.flatten, Fits m) :
    coldRead crc ss fromSeq limit = (qs.flatten.drop (fromSeq - g)).take limit := by
  cases ss with
  | nil => exact absurd rfl hne
  | cons s ss =>
    have hs : s.start = g := by
      cases qs with
      | nil => exact absurd h (by simp [Holds])
      | cons q qs => exact h.1
    obtain ⟨r, e1, e2⟩ := fromLast_holds (s :: ss) qs g (max fromSeq g) limit hne (Nat.le_max_right _ _) h hn hf
    unfold coldRead
    simp only [hs]
    rw [e1]
    simp only
    rw [e2, hn.filter, show max fromSeq g - g = fromSeq - g by omega]

/-- The complete records in the files: at least everything that is known to be flushed. -/
theorem DiskInv.complete (h : DiskInv crc A clock f W d ctx persisted) (hf : ∀ m ∈ W, Fits m) :
    ∃ D qs, D ≤ W.length ∧ persisted + 1 ≤ f + D ∧ qs.flatten = W.take D ∧ Holds crc f d.segs qs
      ∧ (∀ q ∈ qs.dropLast, q ≠ []) := by
  cases h with
  | empty h1 h2 h3 h4 h5 h6 =>
    exact ⟨0, [], Nat.zero_le _, by omega, by simp, by rw [h1]; trivial, by simp⟩
  | files pre l pp p buf h1 h2 h3 h4 h5 h6 h7 h8 =>
    have hfp : ∀ m ∈ p, Fits m := fun m hm => hf m (by rw [h2]; exact List.mem_append_right _ hm)
    obtain ⟨k, torn, c1, c2, c3, c4, c5, _⟩ := cut crc hfp l.data.length
    have hl : l.data = (records crc p).take l.data.length := by
      rw [← h3.lData]; simp
    have hk : persisted + 1 ≤ l.start + k := by
      by_cases hj : persisted + 1 ≤ l.start
      · omega
      · have hj2 : persisted + 1 - l.start ≤ p.length := by omega
        have := cut_ge c5 hj2 (h8 _ hj2 (by omega))
        omega
    refine ⟨pp.flatten.length + k, pp ++ [p.take k], ?_, ?_, ?_, ?_, by simpa using h3.preNonempty⟩
    · rw [h2, List.length_append]; omega
    · rw [h3.lStart] at hk; omega
    · rw [h2, List.flatten_append, List.take_append, List.take_of_length_le (Nat.le_add_right _ _)]
      simp
    · rw [h1]
      have key : ∀ (pre : List Seg) (pp : List (List Msg)) (g : Nat), pre.map (·.start) = starts g pp →
          pre.map (·.data) = pp.map (records crc) → l.start = g + pp.flatten.length →
          Holds crc g (pre ++ [l]) (pp ++ [p.take k]) := by
        intro pre
        induction pre with
        | nil =>
          intro pp g hs hd hls
          cases pp with
          | nil =>
            refine ⟨by simpa using hls, ⟨torn, by rw [hl]; exact c2, c3⟩, trivial⟩
          | cons q qs => simp [starts] at hs
        | cons s pre ih =>
          intro pp g hs hd hls
          cases pp with
          | nil => simp [starts] at hs
          | cons q qs =>
            simp only [List.map_cons, starts, List.cons.injEq] at hs hd
            refine ⟨hs.1, ⟨[], by rw [List.append_nil]; exact hd.1, rfl⟩, ih qs _ hs.2 hd.2 ?_⟩
            simp only [List.flatten_cons, List.length_append] at hls
            omega
      exact key pre pp f h3.preStarts h3.preData h3.lStart

/-- What a read from the files gets. -/
theorem DiskInv.coldRead (h : DiskInv crc A clock f W d ctx persisted) (hf : ∀ m ∈ W, Fits m) (hn : Numbered f W) :
    ∃ D, D ≤ W.length ∧ persisted + 1 ≤ f + D ∧ ∀ fromSeq limit,
      coldRead crc d.segs fromSeq limit = ((W.take D).drop (fromSeq - f)).take limit := by
  obtain ⟨D, qs, h1, h2, h3, h4, _⟩ := h.complete hf
  refine ⟨D, h1, h2, fun fromSeq limit => ?_⟩
  by_cases hs : d.segs = []
  · have : qs = [] := by
      rw [hs] at h4
      cases qs with
      | nil => rfl
      | cons q qs => exact absurd h4 (by simp [Holds])
    rw [this] at h3
    rw [hs, ← h3]
    simp [Stream.coldRead]
  · rw [coldRead_holds fromSeq limit hs h4 (h3 ▸ ?_) (h3 ▸ fun m hm => hf m (List.mem_of_mem_take hm)), h3]
    have : W = W.take D ++ W.drop D := (List.take_append_drop D W).symm
    rw [this] at hn
    exact hn.append.1

theorem Holds.mem {g : Nat} {ss : List Seg} {qs : List (List Msg)} (h : Holds crc g ss qs)
    (hf : ∀ m ∈ qs.flatten, Fits m) {m : Msg} (hm : m ∈ qs.flatten) : ∃ s ∈ ss, m ∈ loadLog crc s.data := by
  induction ss generalizing g qs with
  | nil =>
    cases qs with
    | nil => simp at hm
    | cons q qs => exact absurd h (by simp [Holds])
  | cons s ss ih =>
    cases qs with
    | nil => exact absurd h (by simp [Holds])
    | cons q qs =>
      obtain ⟨_, ⟨torn, hd, ht⟩, h3⟩ := h
      rw [List.flatten_cons] at hm hf
      rcases List.mem_append.1 hm with hm | hm
      · refine ⟨s, List.mem_cons_self, ?_⟩
        rw [hd, loadLog_records crc (fun m hm => hf m (List.mem_append_left _ hm))]
        exact List.mem_append_left _ hm
      · obtain ⟨x, hx, hx'⟩ := ih h3 (fun m hm => hf m (List.mem_append_right _ hm)) hm
        exact ⟨x, List.mem_cons_of_mem _ hx, hx'⟩

theorem DiskInv.headSeq (h : DiskInv crc A clock f W d ctx persisted) : d.headSeq = f := by
  cases h with
  | empty h1 h2 h3 h4 => simp [Disk.headSeq, h1, h4]
  | files pre l pp p buf h1 h2 h3 =>
    simp only [Disk.headSeq, h1]
    cases pre with
    | nil =>
      have hs := h3.preStarts
      cases pp with
      | nil => simpa using h3.lStart
      | cons q qs => simp [starts] at hs
    | cons x xs =>
      have hs := h3.preStarts
      cases pp with
      | nil => simp [starts] at hs
      | cons q qs =>
        simp only [List.map_cons, starts, List.cons.injEq] at hs
        simpa using hs.1

end Verif.Stream
