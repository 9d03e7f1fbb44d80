import Verif.Spec.DashboardUrl
import Verif.Proofs.Paths

/-!
# Addresses, paths and escapes
-/

namespace Verif.Dashboard

open Verif
open Verif.Rpc (ascii)

/-! ### Bytes -/

theorem byte_all {P : UInt8 → Prop} (h : ∀ n : Fin 256, P (UInt8.ofNat n.val)) (c : UInt8) : P c := by
  have := h ⟨c.toNat, c.toNat_lt⟩
  simpa using this

instance (c : UInt8) : Decidable (IsHex c) := by unfold IsHex; infer_instance

theorem nibble_hex (c : UInt8) : (Wire.nibble c).isSome = true ↔ IsHex c := by
  revert c
  apply byte_all
  decide +kernel

theorem hex_plain (c : UInt8) (h : IsHex c) : pathSet c = false ∧ querySet c = false ∧ c ≠ 37 := by
  revert c
  apply byte_all
  decide +kernel

theorem hexUp_value (c : UInt8) : ∃ x y, Wire.nibble (hexUp (c.toNat / 16)) = some x ∧ Wire.nibble (hexUp (c.toNat % 16)) = some y ∧ UInt8.ofNat (x * 16 + y) = c := by
  have : ∀ c : UInt8, (match Wire.nibble (hexUp (c.toNat / 16)), Wire.nibble (hexUp (c.toNat % 16)) with
      | some x, some y => UInt8.ofNat (x * 16 + y) == c | _, _ => false) = true := by
    apply byte_all
    decide +kernel
  have := this c
  split at this
  · next x y hx hy => exact ⟨x, y, hx, hy, by simpa using this⟩
  · cases this

/-! ### Escapes -/

/-- Two hexadecimal digits first. -/
def StartsHex (t : Str) : Prop := ∃ a b r, t = a :: b :: r ∧ IsHex a ∧ IsHex b

theorem unescape_plain {c : UInt8} (h : c ≠ 37) (t : Str) : unescape (c :: t) = c :: unescape t := by
  match t with
  | [] => simp [unescape]
  | [a] => simp [unescape]
  | a :: b :: r => rw [unescape, if_neg h]

theorem unescape_percent {t : Str} (h : ¬ StartsHex t) : unescape (37 :: t) = 37 :: unescape t := by
  match t with
  | [] => simp [unescape]
  | [a] => simp [unescape]
  | a :: b :: r =>
    rw [unescape, if_pos rfl]
    split
    · next x y hx hy =>
      exact absurd ⟨a, b, r, rfl, (nibble_hex a).1 (by rw [hx]; rfl), (nibble_hex b).1 (by rw [hy]; rfl)⟩ h
    · rfl

theorem unescape_hex {a b : UInt8} (ha : IsHex a) (hb : IsHex b) : ∃ x, ∀ r, unescape (37 :: a :: b :: r) = x :: unescape r := by
  obtain ⟨x, hx⟩ := Option.isSome_iff_exists.1 ((nibble_hex a).2 ha)
  obtain ⟨y, hy⟩ := Option.isSome_iff_exists.1 ((nibble_hex b).2 hb)
  exact ⟨UInt8.ofNat (x * 16 + y), fun r => by rw [unescape, if_pos rfl]; simp only [hx, hy]⟩

theorem unescape_escaped (c : UInt8) (r : Str) : unescape (escaped c ++ r) = c :: unescape r := by
  obtain ⟨x, y, hx, hy, hc⟩ := hexUp_value c
  show unescape (37 :: _ :: _ :: r) = _
  rw [unescape, if_pos rfl]
  simp only [hx, hy, hc]

/-- A set of bytes that are escaped, which has neither `%` nor hexadecimal digits. -/
def Gentle (set : UInt8 → Bool) : Prop := set 37 = false ∧ ∀ c, IsHex c → set c = false

theorem starts_encode {set : UInt8 → Bool} {t : Str} (h : ¬ StartsHex t) : ¬ StartsHex (encodeWith set t) := by
  rintro ⟨a, b, r, he, ha, hb⟩
  have h37 : ¬ IsHex 37 := by decide
  match t with
  | [] => cases he
  | c :: t =>
    simp only [encodeWith, List.flatMap_cons] at he
    by_cases hc : set c = true
    · rw [if_pos hc] at he
      injection he with he _
      exact h37 (he ▸ ha)
    · rw [if_neg hc] at he
      injection he with he1 he2
      subst he1
      match t with
      | [] => cases he2
      | d :: t =>
        simp only [List.flatMap_cons] at he2
        by_cases hd : set d = true
        · rw [if_pos hd] at he2
          injection he2 with he2 _
          exact h37 (he2 ▸ hb)
        · rw [if_neg hd] at he2
          injection he2 with he2 _
          subst he2
          exact h ⟨c, d, t, rfl, ha, hb⟩

theorem encode_cons {set : UInt8 → Bool} {c : UInt8} (h : set c = false) (t : Str) : encodeWith set (c :: t) = c :: encodeWith set t := by
  simp [encodeWith, h]

theorem unescape_encode {set : UInt8 → Bool} (hs : Gentle set) : ∀ s : Str, unescape (encodeWith set s) = unescape s := by
  suffices H : ∀ k (s : Str), s.length ≤ k → unescape (encodeWith set s) = unescape s from fun s => H _ s (Nat.le_refl _)
  intro k
  induction k with
  | zero =>
    intro s h
    rw [List.length_eq_zero_iff.1 (Nat.le_zero.1 h)]; rfl
  | succ k ih =>
    intro s h
    match s with
    | [] => rfl
    | c :: t =>
      simp only [List.length_cons] at h
      by_cases hc : c = 37
      · subst hc
        rw [encode_cons hs.1]
        by_cases hx : StartsHex t
        · obtain ⟨a, b, r, rfl, ha, hb⟩ := hx
          rw [encode_cons (hs.2 a ha), encode_cons (hs.2 b hb)]
          obtain ⟨x, hx⟩ := unescape_hex ha hb
          rw [hx, hx, ih r (by simp only [List.length_cons] at h; omega)]
        · rw [unescape_percent hx, unescape_percent (starts_encode hx), ih t (by omega)]
      · rw [unescape_plain hc]
        cases hsc : set c with
        | true =>
          have : encodeWith set (c :: t) = escaped c ++ encodeWith set t := by simp [encodeWith, hsc]
          rw [this, unescape_escaped, ih t (by omega)]
        | false => rw [encode_cons hsc, unescape_plain hc, ih t (by omega)]

/-- Unescaping shortens a text with an escape and leaves another one as it is. -/
theorem unescape_length : ∀ s : Str, (unescape s).length ≤ s.length ∧ ((unescape s).length = s.length → ¬ HasEscape s) ∧ (¬ HasEscape s → unescape s = s) := by
  suffices H : ∀ k (s : Str), s.length ≤ k →
      (unescape s).length ≤ s.length ∧ ((unescape s).length = s.length → ¬ HasEscape s) ∧ (¬ HasEscape s → unescape s = s) from
    fun s => H _ s (Nat.le_refl _)
  intro k
  induction k with
  | zero =>
    intro s h
    rw [List.length_eq_zero_iff.1 (Nat.le_zero.1 h)]
    refine ⟨Nat.le_refl _, fun _ => ?_, fun _ => rfl⟩
    rintro ⟨u, a, b, v, h, _⟩
    cases u <;> cases h
  | succ k ih =>
    intro s h
    match s with
    | [] =>
      refine ⟨Nat.le_refl _, fun _ => ?_, fun _ => rfl⟩
      rintro ⟨u, a, b, v, h, _⟩
      cases u <;> cases h
    | c :: t =>
      simp only [List.length_cons] at h
      obtain ⟨i1, i2, i3⟩ := ih t (by omega)
      by_cases hx : c = 37 ∧ StartsHex t
      · obtain ⟨rfl, a, b, r, rfl, ha, hb⟩ := hx
        obtain ⟨x, hx⟩ := unescape_hex ha hb
        have := (ih r (by simp only [List.length_cons] at h; omega)).1
        rw [hx]
        refine ⟨by simp only [List.length_cons]; omega, fun he => by simp only [List.length_cons] at he; omega, fun hn => ?_⟩
        exact absurd ⟨[], a, b, r, rfl, ha, hb⟩ hn
      · have hu : unescape (c :: t) = c :: unescape t := by
          by_cases hc : c = 37
          · subst hc; exact unescape_percent (fun h => hx ⟨rfl, h⟩)
          · exact unescape_plain hc t
        have esc : HasEscape (c :: t) ↔ HasEscape t := by
          constructor
          · rintro ⟨u, a, b, v, he, ha, hb⟩
            match u with
            | [] =>
              injection he with he1 he2
              exact absurd ⟨he1, a, b, v, he2, ha, hb⟩ hx
            | d :: u =>
              injection he with _ he2
              exact ⟨u, a, b, v, he2, ha, hb⟩
          · rintro ⟨u, a, b, v, rfl, ha, hb⟩
            exact ⟨c :: u, a, b, v, rfl, ha, hb⟩
        rw [hu, esc]
        refine ⟨by simp only [List.length_cons]; omega, fun he => i2 (by simpa using he), fun hn => by rw [i3 hn]⟩

/-! ### Parts of a path -/

theorem parts_length : ∀ (s : Str) {p : Str}, p ∈ parts s → p.length ≤ s.length ∧ (p.length = s.length → p = s ∧ ∀ c ∈ s, c ≠ 47 ∧ c ≠ 92) := by
  intro s
  induction s with
  | nil =>
    intro p h
    rw [List.mem_singleton.1 h]
    exact ⟨Nat.le_refl _, fun _ => ⟨rfl, fun _ h => nomatch h⟩⟩
  | cons c t ih =>
    intro p h
    simp only [parts] at h
    by_cases hc : c = 47 ∨ c = 92
    · rw [if_pos hc] at h
      rcases List.mem_cons.1 h with rfl | h
      · exact ⟨Nat.zero_le _, fun h => by cases h⟩
      · have := (ih h).1
        exact ⟨by simp only [List.length_cons]; omega, fun he => by simp only [List.length_cons] at he; omega⟩
    · rw [if_neg hc] at h
      cases hp : parts t with
      | nil =>
        rw [hp] at h
        have : ∀ t, parts t ≠ [] := by
          intro t
          cases t with
          | nil => simp [parts]
          | cons a t => simp only [parts]; repeat' split
                        all_goals simp
        exact absurd hp (this t)
      | cons q ps =>
        rw [hp] at h ih
        simp only at h
        rcases List.mem_cons.1 h with rfl | h
        · have := ih (List.mem_cons_self (a := q) (l := ps))
          refine ⟨by simp only [List.length_cons]; omega, fun he => ?_⟩
          obtain ⟨h1, h2⟩ := this.2 (by simpa using he)
          refine ⟨by rw [h1], fun d hd => ?_⟩
          rcases List.mem_cons.1 hd with rfl | hd
          · exact ⟨fun h => hc (.inl h), fun h => hc (.inr h)⟩
          · exact h2 d hd
        · have := (ih (List.mem_cons_of_mem q h)).1
          exact ⟨by simp only [List.length_cons]; omega, fun he => by simp only [List.length_cons] at he; omega⟩

theorem parts_simple {s : Str} (h : ∀ c ∈ s, c ≠ 47 ∧ c ≠ 92) : parts s = [s] := by
  induction s with
  | nil => rfl
  | cons c t ih =>
    have hc := h c List.mem_cons_self
    simp only [parts]
    rw [if_neg (fun h => h.elim hc.1 hc.2), ih (fun d hd => h d (List.mem_cons_of_mem _ hd))]

theorem parts_append (s t : Str) : parts (s ++ 47 :: t) = parts s ++ parts t := by
  induction s with
  | nil => simp [parts]
  | cons c s ih =>
    simp only [List.cons_append, parts, ih]
    by_cases hc : c = 47 ∨ c = 92
    · simp only [if_pos hc, List.cons_append]
    · simp only [if_neg hc]
      cases hp : parts s with
      | nil =>
        exfalso
        cases s with
        | nil => cases hp
        | cons a t => simp only [parts] at hp; repeat' split at hp
                      all_goals cases hp
      | cons q ps => rfl

theorem walk_mem {path : List Str} {s x : Str} (h : x ∈ (walk path s).drop 2) : x ∈ path.drop 2 ∨ (isDot s = false ∧ isDotDot s = false ∧ x = encodeWith pathSet s) := by
  unfold walk at h
  split at h
  · rw [List.dropLast_eq_take, List.drop_take] at h
    exact .inl (List.mem_of_mem_take h)
  · split at h
    · exact .inl h
    · next h1 h2 =>
      rw [List.drop_append] at h
      rcases List.mem_append.1 h with h | h
      · exact .inl h
      · have := List.mem_of_mem_drop h
        exact .inr ⟨by simpa using h2, by simpa using h1, List.mem_singleton.1 this⟩

theorem walks_mem (ps : List Str) : ∀ {path : List Str} {x : Str}, x ∈ (ps.foldl walk path).drop 2 →
    x ∈ path.drop 2 ∨ ∃ p ∈ ps, isDot p = false ∧ isDotDot p = false ∧ x = encodeWith pathSet p := by
  induction ps with
  | nil => intro path x h; exact .inl h
  | cons s ps ih =>
    intro path x h
    rcases ih h with h | ⟨p, hp, h⟩
    · rcases walk_mem h with h | h
      · exact .inl h
      · exact .inr ⟨s, List.mem_cons_self, h⟩
    · exact .inr ⟨p, List.mem_cons_of_mem _ hp, h⟩

theorem walkLast_mem {path : List Str} {s x : Str} (h : x ∈ (walkLast path s).drop 2) :
    x ∈ path.drop 2 ∨ x = [] ∨ (isDot s = false ∧ isDotDot s = false ∧ x = encodeWith pathSet s) := by
  unfold walkLast at h
  split at h
  · rw [List.drop_append] at h
    rcases List.mem_append.1 h with h | h
    · rw [List.dropLast_eq_take, List.drop_take] at h
      exact .inl (List.mem_of_mem_take h)
    · exact .inr (.inl (List.mem_singleton.1 (List.mem_of_mem_drop h)))
  · split at h
    · rw [List.drop_append] at h
      rcases List.mem_append.1 h with h | h
      · exact .inl h
      · exact .inr (.inl (List.mem_singleton.1 (List.mem_of_mem_drop h)))
    · next h1 h2 =>
      rw [List.drop_append] at h
      rcases List.mem_append.1 h with h | h
      · exact .inl h
      · exact .inr (.inr ⟨by simpa using h2, by simpa using h1, List.mem_singleton.1 (List.mem_of_mem_drop h)⟩)

theorem parts_ne_nil (t : Str) : parts t ≠ [] := by
  cases t with
  | nil => simp [parts]
  | cons a t => simp only [parts]; repeat' split
                all_goals simp

theorem resolve_snoc (ps : List Str) (l : Str) : resolve (ps ++ [l]) = walkLast (ps.foldl walk []) l := by
  simp [resolve]

end Verif.Dashboard
