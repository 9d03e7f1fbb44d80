import Verif.Spec.DashboardPages

/-! # Paging by offset -/

namespace Verif.Dashboard

open Verif

variable {α : Type} {size : Nat} {total : Nat → Nat} {page : Nat → List α} {all : List α}

theorem offsetAfter_snoc (cs : List Click) (c : Click) :
    offsetAfter size total (cs ++ [c]) = turn size (total (offsetAfter size total cs)) (offsetAfter size total cs) c := by
  simp [offsetAfter]

theorem offsetAfter_next (ht : ∀ o, total o = all.length) : ∀ k, (k = 0 ∨ k * size < all.length) →
    offsetAfter size total (List.replicate k .next) = k * size := by
  intro k
  induction k with
  | zero => intro _; simp [offsetAfter]
  | succ k ih =>
    intro h
    have h' : (k + 1) * size < all.length := by omega
    have : k * size + size < all.length := by rwa [Nat.succ_mul] at h'
    rw [List.replicate_succ', offsetAfter_snoc, ih (.inr (by omega)), ht]
    simp [turn, nextOn, this, Nat.succ_mul]

theorem pages_flat (n : Nat) : (List.range n).flatMap (fun k => (all.drop (k * size)).take size) = all.take (n * size) := by
  induction n with
  | zero => simp
  | succ n ih =>
    rw [List.range_succ, List.flatMap_append, ih]
    simp only [List.flatMap_cons, List.flatMap_nil, List.append_nil]
    rw [Nat.succ_mul, List.take_add]

theorem showsAll (hs : 0 < size) (ht : ∀ o, total o = all.length) (hp : ∀ o, page o = (all.drop o).take size) :
    ShowsAll size total page all := by
  have hdm := Nat.div_add_mod (all.length - 1) size
  have hlt := Nat.mod_lt (all.length - 1) hs
  generalize hn : (all.length - 1) / size = n at hdm
  generalize (all.length - 1) % size = r at hdm hlt
  have hcomm : size * n = n * size := Nat.mul_comm ..
  have hmono : ∀ k, k < n → k * size + size ≤ n * size := fun k hk => by
    have := Nat.mul_le_mul_right size hk
    rwa [Nat.succ_mul] at this
  have hz : n = 0 ∨ n * size < all.length := by
    by_cases h0 : n = 0
    · exact .inl h0
    · right
      have : 0 < n * size := Nat.mul_pos (by omega) hs
      omega
  have hk : ∀ k ≤ n, offsetAfter size total (List.replicate k .next) = k * size := by
    intro k hk
    apply offsetAfter_next ht
    by_cases h0 : k = n
    · rw [h0]; exact hz
    · have := hmono k (by omega)
      right
      rcases hz with h | h <;> omega
  refine ⟨n, ?_, ?_, ?_⟩
  · intro k hkn
    dsimp only
    rw [hk k (by omega), ht]
    have := hmono k hkn
    simp only [nextOn, decide_eq_true_eq]
    rcases hz with h | h <;> omega
  · dsimp only
    rw [hk n (by omega), ht]
    simp only [nextOn, decide_eq_false_iff_not]
    omega
  · have : (List.range (n + 1)).flatMap (fun k => page (offsetAfter size total (List.replicate k .next)))
        = (List.range (n + 1)).flatMap (fun k => (all.drop (k * size)).take size) := by
      rw [List.flatMap_def, List.flatMap_def]
      congr 1
      apply List.map_congr_left
      intro k hkn
      rw [hk k (by rw [List.mem_range] at hkn; omega), hp]
    show (List.range (n + 1)).flatMap (fun k => page (offsetAfter size total (List.replicate k .next))) = all
    rw [this, pages_flat, List.take_of_length_le]
    rw [Nat.succ_mul]
    omega

theorem offsetAfter_in (ht : ∀ o, total o = all.length) (cs : List Click) :
    offsetAfter size total cs = 0 ∨ offsetAfter size total cs < all.length := by
  rw [← List.reverse_reverse cs]
  generalize cs.reverse = cs
  induction cs with
  | nil => exact .inl rfl
  | cons c cs ih =>
    rw [List.reverse_cons, offsetAfter_snoc, ht]
    generalize offsetAfter size total cs.reverse = o at ih
    cases c with
    | next =>
      by_cases h : o + size < all.length
      · exact .inr (by simp [turn, nextOn, h])
      · simpa [turn, nextOn, h] using ih
    | prev =>
      by_cases h : o = 0
      · exact .inl (by simp [turn, prevOn, h])
      · simp only [turn, prevOn, h, ne_eq, not_false_eq_true, decide_true, if_true]
        omega

theorem oriented (hs : 0 < size) (ht : ∀ o, total o = all.length) (hp : ∀ o, page o = (all.drop o).take size) :
    Oriented size total page all := by
  intro cs
  have hin := offsetAfter_in (size := size) ht cs
  rw [ht, hp]
  generalize offsetAfter size total cs = o at hin
  refine ⟨all.take o, (all.drop o).drop size, ?_, ?_, ?_, ?_⟩
  · rw [List.append_assoc, List.take_append_drop, List.take_append_drop]
  · simp only [nextOn, decide_eq_true_eq, ne_eq, List.drop_drop, List.drop_eq_nil_iff]
    omega
  · simp only [prevOn, decide_eq_true_eq, ne_eq, List.take_eq_nil_iff]
    constructor
    · rintro h (h1 | h1)
      · exact h h1
      · rw [h1] at hin
        simp at hin
        exact h hin
    · exact fun h h1 => h (.inl h1)
  · intro hne h
    rw [List.take_eq_nil_iff, List.drop_eq_nil_iff] at h
    have : 0 < all.length := List.length_pos_iff.2 hne
    omega

theorem offsetAfter_whole (cs : List Click) : ∃ k, offsetAfter size total cs = k * size := by
  rw [← List.reverse_reverse cs]
  generalize cs.reverse = cs
  induction cs with
  | nil => exact ⟨0, by simp [offsetAfter]⟩
  | cons c cs ih =>
    rw [List.reverse_cons, offsetAfter_snoc]
    obtain ⟨k, hk⟩ := ih
    rw [hk]
    cases c with
    | next =>
      dsimp only [turn]
      split
      · exact ⟨k + 1, (Nat.succ_mul ..).symm⟩
      · exact ⟨k, rfl⟩
    | prev =>
      dsimp only [turn]
      split
      · exact ⟨k - 1, by rw [Nat.sub_mul, Nat.one_mul]⟩
      · exact ⟨k, rfl⟩

/-- Two pages, one after the other. -/
theorem two_pages (o : Nat) : all = all.take o ++ (all.drop o).take size ++ (all.drop (o + size)).take size ++ all.drop (o + size + size) := by
  have h1 : all.drop o = (all.drop o).take size ++ all.drop (o + size) := by
    rw [← List.drop_drop, List.take_append_drop]
  have h2 : all.drop (o + size) = (all.drop (o + size)).take size ++ all.drop (o + size + size) := by
    rw [← List.drop_drop (i := size) (j := o + size), List.take_append_drop]
  rw [List.append_assoc, List.append_assoc, ← h2, ← h1, List.take_append_drop]

theorem adjacent (hp : ∀ o, page o = (all.drop o).take size) : Adjacent size total page all := by
  intro cs o
  obtain ⟨k, hk⟩ := offsetAfter_whole (size := size) (total := total) cs
  constructor
  · intro hn
    have : offsetAfter size total (cs ++ [.next]) = o + size := by
      rw [offsetAfter_snoc]
      show turn size (total o) o .next = _
      rw [turn, if_pos hn]
    rw [this, hp, hp]
    exact ⟨_, _, two_pages o⟩
  · intro hn
    have : offsetAfter size total (cs ++ [.prev]) = o - size := by
      rw [offsetAfter_snoc]
      show turn size (total o) o .prev = _
      rw [turn, if_pos hn]
    rw [this, hp, hp]
    have ho : o = k * size := hk
    have hne : o ≠ 0 := by simpa [prevOn] using hn
    obtain ⟨j, hj⟩ : ∃ j, o = j + size := by
      cases k with
      | zero => simp at ho; omega
      | succ k => exact ⟨k * size, by rw [ho, Nat.succ_mul]⟩
    rw [hj, Nat.add_sub_cancel]
    exact ⟨_, _, two_pages j⟩

end Verif.Dashboard
