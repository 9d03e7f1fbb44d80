import Verif.Proofs.StreamTopic

/-!
# Retention
-/

namespace Verif.Stream

theorem snoc_cases {α : Type} (l : List α) : l = [] ∨ ∃ pre x, l = pre ++ [x] := by
  rcases List.eq_nil_or_concat l with h | ⟨p, x, h⟩
  · exact .inl h
  · exact .inr ⟨p, x, by simpa using h⟩

theorem filter_sorted (a now : Nat) (l : List Seg) (h : l.Pairwise (fun x y => x.mtime ≤ y.mtime)) :
    l.filter (fun s => !decide (s.mtime + a < now)) = l.dropWhile (fun s => decide (s.mtime + a < now)) := by
  induction l with
  | nil => rfl
  | cons s t ih =>
    rw [List.pairwise_cons] at h
    by_cases hs : s.mtime + a < now
    · rw [List.filter_cons_of_neg (by simpa using hs), List.dropWhile_cons_of_pos (by simpa using hs), ih h.2]
    · rw [List.filter_cons_of_pos (by simpa using hs), List.dropWhile_cons_of_neg (by simpa using hs)]
      congr 1
      apply List.filter_eq_self.mpr
      intro x hx
      have := h.1 x hx
      simp only [Bool.not_eq_true', decide_eq_false_iff_not]
      omega

theorem ageKeep_snoc (a now : Nat) (pre : List Seg) (l : Seg) (hs : ∀ s ∈ pre, s.start ≠ l.start) :
    ageKeep a now (pre ++ [l]) = pre.filter (fun s => !decide (s.mtime + a < now)) ++ [l] := by
  unfold ageKeep
  rw [List.getLast?_append, List.filter_append]
  simp only [List.getLast?_singleton, Option.some_or, Option.map_some]
  congr 1
  · apply List.filter_congr
    intro x hx
    have := hs x hx
    simp [this]
  · simp

theorem ageKeep_last (a now : Nat) (segs : List Seg) : (ageKeep a now segs).getLast? = segs.getLast? := by
  rcases snoc_cases segs with h | ⟨pre, l, h⟩
  · rw [h]; rfl
  · rw [h]
    unfold ageKeep
    rw [List.filter_append]
    simp

theorem sizeKeep_suffix (mb : Nat) (segs : List Seg) (total : Nat) : sizeKeep mb total segs <:+ segs := by
  induction segs generalizing total with
  | nil => exact List.suffix_refl _
  | cons s t ih =>
    unfold sizeKeep
    split
    · exact (ih _).trans (List.suffix_cons s t)
    · exact List.suffix_refl _

theorem sizeKeep_last (mb : Nat) (segs : List Seg) (total : Nat) : (sizeKeep mb total segs).getLast? = segs.getLast? := by
  induction segs generalizing total with
  | nil => rfl
  | cons s t ih =>
    unfold sizeKeep
    split
    · next h =>
      rw [ih]
      cases t with
      | nil => simp at h
      | cons a t => rw [List.getLast?_cons_cons]
    · rfl

/-- The size check removes nothing more as soon as the rest fits. -/
theorem sizeKeep_minimal (mb : Nat) (segs : List Seg) :
    ∃ gone, segs = gone ++ sizeKeep mb (totalSize segs) segs
      ∧ (totalSize (sizeKeep mb (totalSize segs) segs) ≤ mb ∨ (sizeKeep mb (totalSize segs) segs).length ≤ 1)
      ∧ ∀ a b, gone = a ++ b → b ≠ [] → mb < totalSize (b ++ sizeKeep mb (totalSize segs) segs) := by
  induction segs with
  | nil => exact ⟨[], rfl, .inr (by simp [sizeKeep]), fun a b h hb => absurd (List.append_eq_nil_iff.1 h.symm).2 hb⟩
  | cons s t ih =>
    have htot : totalSize (s :: t) - s.data.length = totalSize t := by
      simp only [totalSize, List.map_cons, List.sum_cons]; omega
    unfold sizeKeep
    split
    · next h =>
      rw [htot]
      obtain ⟨gone, h1, h2, h3⟩ := ih
      refine ⟨s :: gone, by rw [List.cons_append, ← h1], h2, fun a b hab hb => ?_⟩
      cases a with
      | nil =>
        have : b = s :: gone := hab.symm
        rw [this, List.cons_append, ← h1]
        simp only [Bool.and_eq_true, decide_eq_true_eq] at h
        exact h.1
      | cons x a =>
        injection hab with _ hab
        exact h3 a b hab hb
    · next h =>
      refine ⟨[], rfl, ?_, fun a b hab hb => absurd (List.append_eq_nil_iff.1 hab.symm).2 hb⟩
      simp only [Bool.and_eq_true, decide_eq_true_eq, Bool.not_eq_true', List.isEmpty_eq_false_iff, not_and, ne_eq,
        Decidable.not_not] at h
      by_cases hm : mb < totalSize (s :: t)
      · right; rw [h hm]; simp
      · left; omega

theorem retainSegs_last (r : Retention) (now : Nat) (segs : List Seg) :
    (retainSegs r now segs).getLast? = segs.getLast? := by
  unfold retainSegs
  split
  · rfl
  · simp only
    cases r.maxAge <;> cases r.maxBytes <;> simp only [sizeKeep_last, ageKeep_last]

/-- With increasing names and non-decreasing modification times the segments that are left are the newest ones. -/
theorem retainSegs_suffix (r : Retention) (now : Nat) (segs : List Seg)
    (hs : segs.Pairwise (fun x y => x.start < y.start))
    (hm : r.maxAge = none ∨ segs.Pairwise (fun x y => x.mtime ≤ y.mtime)) :
    retainSegs r now segs <:+ segs := by
  have haged : ∀ a, r.maxAge = some a → ageKeep a now segs <:+ segs := by
    intro a ha
    have hm : segs.Pairwise (fun x y => x.mtime ≤ y.mtime) := by
      rcases hm with hm | hm
      · rw [ha] at hm; cases hm
      · exact hm
    rcases snoc_cases segs with h | ⟨pre, l, h⟩
    · rw [h]; exact List.suffix_refl _
    · rw [h] at hs hm
      have hs := (List.pairwise_append.1 hs).2.2
      have hm := (List.pairwise_append.1 hm).1
      rw [h, ageKeep_snoc a now _ _ (fun s hsm => by have := hs s hsm _ (List.mem_singleton.2 rfl); omega),
        filter_sorted a now _ hm]
      obtain ⟨p, hp⟩ := List.dropWhile_suffix (l := pre) (fun s => decide (s.mtime + a < now))
      refine ⟨p, ?_⟩
      rw [← List.append_assoc, hp]
  unfold retainSegs
  split
  · exact List.suffix_refl _
  · simp only
    cases ha : r.maxAge <;> cases r.maxBytes <;> simp only
    · exact List.suffix_refl _
    · exact sizeKeep_suffix _ _ _
    · exact haged _ ha
    · exact (sizeKeep_suffix _ _ _).trans (haged _ ha)

end Verif.Stream
