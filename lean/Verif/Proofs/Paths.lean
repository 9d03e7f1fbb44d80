import Verif.Spec.Paths

/-! # Proofs: file names -/

namespace Verif.Paths

open Verif

theorem split_ne_nil (s : Str) : split s ≠ [] := by
  cases s with
  | nil => simp [split]
  | cons b s =>
    simp only [split]
    split
    · simp
    · split <;> simp

theorem split_append (a b : Str) : split (a ++ slash :: b) = split a ++ split b := by
  induction a with
  | nil => simp [split]
  | cons x a ih =>
    simp only [List.cons_append, split]
    by_cases h : x = slash
    · simp [h, ih]
    · rw [if_neg h, if_neg h, ih]
      cases hs : split a with
      | nil => exact absurd hs (split_ne_nil a)
      | cons c cs => simp

theorem split_simple {n : Str} (h : slash ∉ n) : split n = [n] := by
  induction n with
  | nil => rfl
  | cons x n ih =>
    simp only [List.mem_cons, not_or] at h
    simp only [split]
    rw [if_neg (fun e => h.1 e.symm), ih h.2]

theorem isAbsolute_simple {n : Str} (h : slash ∉ n) : isAbsolute n = false := by
  cases n with
  | nil => rfl
  | cons x n =>
    simp only [List.mem_cons, not_or] at h
    simp only [isAbsolute, List.head?_cons, beq_eq_false_iff_ne, ne_eq, Option.some.injEq]
    exact fun e => h.1 e.symm

theorem Simple.tame {n : Str} (h : Simple n) : Tame n := by
  refine ⟨isAbsolute_simple h.2.2.2, ?_⟩
  rw [split_simple h.2.2.2]
  simp only [List.mem_singleton]
  exact fun e => h.2.2.1 e.symm

theorem resolve_join (cwd : List Str) (base p : Str) (hp : isAbsolute p = false) :
    resolve cwd (join base p) = (split p).foldl enter (resolve cwd base) := by
  unfold join
  rw [hp]
  simp only [Bool.false_eq_true, if_false]
  by_cases hb : base = []
  · subst hb
    simp only [true_or, if_true, List.nil_append, resolve, hp, Bool.false_eq_true, if_false]
    rfl
  · by_cases hl : base.getLast? = some slash
    · rw [if_pos (.inr hl)]
      obtain ⟨a, ha⟩ : ∃ a, base = a ++ [slash] := by
        refine ⟨base.take (base.length - 1), ?_⟩
        have h0 : 0 < base.length := List.length_pos_iff.2 hb
        rw [List.getLast?_eq_getElem?] at hl
        obtain ⟨hlt, he⟩ := List.getElem?_eq_some_iff.1 hl
        rw [← he, List.take_append_getElem, List.take_of_length_le (by omega)]
      subst ha
      have e1 : a ++ [slash] ++ p = a ++ slash :: p := by simp
      have habs : isAbsolute (a ++ slash :: p) = isAbsolute (a ++ [slash]) := by cases a <;> simp [isAbsolute]
      rw [e1]
      unfold resolve
      rw [habs, split_append, split_append, List.foldl_append, List.foldl_append]
      simp [split, enter]
    · rw [if_neg (by simp [hb, hl])]
      have e1 : base ++ [slash] ++ p = base ++ slash :: p := by simp
      have habs : isAbsolute (base ++ slash :: p) = isAbsolute base := by
        cases base with
        | nil => exact absurd rfl hb
        | cons x l => simp [isAbsolute]
      rw [e1]
      unfold resolve
      rw [habs, split_append, List.foldl_append]

theorem foldl_enter_prefix {cs : List Str} (h : dotdot ∉ cs) (d : List Str) : d <+: cs.foldl enter d := by
  induction cs generalizing d with
  | nil => exact List.prefix_refl d
  | cons c cs ih =>
    simp only [List.mem_cons, not_or] at h
    simp only [List.foldl_cons]
    refine List.IsPrefix.trans ?_ (ih h.2 _)
    unfold enter
    split
    · exact List.prefix_refl d
    · rw [if_neg (fun e => h.1 e.symm)]
      exact List.prefix_append d [c]

theorem resolve_tame {cwd : List Str} {base p : Str} (h : Tame p) : resolve cwd base <+: resolve cwd (join base p) := by
  rw [resolve_join cwd base p h.1]
  exact foldl_enter_prefix h.2 _

theorem resolve_simple {cwd : List Str} {base p : Str} (h : Simple p) :
    resolve cwd (join base p) = resolve cwd base ++ [p] := by
  rw [resolve_join cwd base p (isAbsolute_simple h.2.2.2), split_simple h.2.2.2]
  simp [enter, h.1, h.2.1, h.2.2.1]

/-! ### The fixed names -/

theorem digitsN_mem (k n : Nat) {b : UInt8} (h : b ∈ digitsN k n) : b ≠ slash ∧ b ≠ 0x2E := by
  induction k generalizing n with
  | zero => cases h
  | succ k ih =>
    simp only [digitsN, List.mem_append, List.mem_singleton] at h
    rcases h with h | h
    · split at h
      · cases h
      · exact ih _ h
    · subst h
      have : n % 10 < 10 := Nat.mod_lt _ (by decide)
      generalize n % 10 = m at this
      match m, this with
      | 0, _ => decide
      | 1, _ => decide
      | 2, _ => decide
      | 3, _ => decide
      | 4, _ => decide
      | 5, _ => decide
      | 6, _ => decide
      | 7, _ => decide
      | 8, _ => decide
      | 9, _ => decide

theorem simple_suffix {n s : Str} (hn : slash ∉ n) (hs : slash ∉ s) (hl : 3 ≤ s.length) : Simple (n ++ s) := by
  refine ⟨?_, ?_, ?_, ?_⟩
  · intro h; rw [(List.append_eq_nil_iff.1 h).2] at hl; simp at hl
  · intro h; have := congrArg List.length h; simp [dot] at this; omega
  · intro h; have := congrArg List.length h; simp [dotdot] at this; omega
  · simp [hn, hs]

theorem simple_segment (seq : Nat) : Simple (digits seq ++ dotLog) :=
  simple_suffix (fun h => (digitsN_mem _ _ h).1 rfl) (by decide) (by decide)

theorem simple_config : Simple configJson := by decide
theorem simple_groups : Simple groupsLog := by decide
theorem simple_tmp : Simple groupsTmp := by decide

/-- The suffixes of the files of a queue. -/
def suffixes : List Str := [dotDb, dotWal, dotShm, dotConfig]

theorem suffix_ok {s : Str} (h : s ∈ suffixes) : slash ∉ s ∧ 3 ≤ s.length ∧ s ≠ [] := by
  simp only [suffixes, List.mem_cons, List.not_mem_nil, or_false] at h
  rcases h with rfl | rfl | rfl | rfl <;> decide

/-- The last component of a name grows, the others stay. -/
theorem split_grow (n s : Str) (hs : slash ∉ s) :
    ∃ cs c, split n = cs ++ [c] ∧ split (n ++ s) = cs ++ [c ++ s] := by
  induction n with
  | nil => exact ⟨[], [], rfl, by simp [split_simple hs]⟩
  | cons x n ih =>
    obtain ⟨cs, c, h1, h2⟩ := ih
    simp only [List.cons_append, split, h1, h2]
    by_cases h : x = slash
    · rw [if_pos h, if_pos h]
      exact ⟨[] :: cs, c, rfl, rfl⟩
    · rw [if_neg h, if_neg h]
      cases cs with
      | nil => exact ⟨[], x :: c, rfl, rfl⟩
      | cons d ds => exact ⟨(x :: d) :: ds, c, rfl, rfl⟩

theorem Tame.grow {n s : Str} (h : Tame n) (hs : slash ∉ s) (hl : 3 ≤ s.length) : Tame (n ++ s) := by
  obtain ⟨cs, c, h1, h2⟩ := split_grow n s hs
  constructor
  · cases n with
    | nil => exact isAbsolute_simple hs
    | cons x n => have := h.1; simpa [isAbsolute] using this
  · have h' := h.2
    rw [h1] at h'
    rw [h2]
    simp only [List.mem_append, List.mem_singleton, not_or] at h' ⊢
    refine ⟨h'.1, fun e => ?_⟩
    have := congrArg List.length e
    simp [dotdot] at this
    omega

/-- Files of different queues have different names. -/
theorem suffix_inj {n m s s' : Str} (hs : s ∈ suffixes) (hs' : s' ∈ suffixes) (h : n ++ s = m ++ s') : n = m := by
  have key : ∀ s ∈ suffixes, ∀ s' ∈ suffixes, s = s' ∨ s.getLast? ≠ s'.getLast? := by decide
  rcases key s hs s' hs' with e | e
  · subst e; exact List.append_cancel_right h
  · refine absurd ?_ e
    have := congrArg List.getLast? h
    rw [List.getLast?_append, List.getLast?_append] at this
    have h1 : s.getLast?.isSome := by simp [(suffix_ok hs).2.2]
    have h2 : s'.getLast?.isSome := by simp [(suffix_ok hs').2.2]
    obtain ⟨a, ha⟩ := Option.isSome_iff_exists.1 h1
    obtain ⟨b, hb⟩ := Option.isSome_iff_exists.1 h2
    rw [ha, hb] at this ⊢
    simpa using this

theorem digit_toNat (n : Nat) : (UInt8.ofNat (0x30 + n % 10)).toNat = 0x30 + n % 10 := by
  rw [UInt8.toNat_ofNat']
  have := Nat.mod_lt n (by decide : 0 < 10)
  omega

theorem parseDigits_append (a : Nat) (s t : Str) : parseDigits a (s ++ t) = (parseDigits a s).bind (fun b => parseDigits b t) := by
  induction s generalizing a with
  | nil => rfl
  | cons b s ih =>
    simp only [List.cons_append, parseDigits]
    split
    · exact ih _
    · rfl

theorem parseDigits_digitsN (k n : Nat) (hk : n < k) (hn : n < 2 ^ 64) : parseDigits 0 (digitsN k n) = some n := by
  induction k generalizing n with
  | zero => omega
  | succ k ih =>
    have hd := digit_toNat n
    have hm := Nat.mod_lt n (by decide : 0 < 10)
    have hlast : ∀ a, a = n / 10 → parseDigits a [UInt8.ofNat (0x30 + n % 10)] = some n := by
      rintro a rfl
      simp only [parseDigits, hd]
      rw [if_pos (by omega)]
      congr 1; omega
    simp only [digitsN, parseDigits_append]
    split
    · next h => exact hlast 0 (by omega)
    · next h =>
      rw [ih (n / 10) (by omega) (by omega)]
      exact hlast _ rfl

theorem digits_head (n : Nat) : ∃ b r, digits n = b :: r ∧ b ≠ 0x2B := by
  have hne : digits n ≠ [] := by simp [digits, digitsN]
  have hall : ∀ k n, ∀ b ∈ digitsN k n, b ≠ 0x2B := by
    intro k
    induction k with
    | zero => intro n b hb; cases hb
    | succ k ih =>
      intro n b hb
      simp only [digitsN, List.mem_append, List.mem_singleton] at hb
      rcases hb with hb | rfl
      · split at hb
        · cases hb
        · exact ih _ b hb
      · intro hc
        have := congrArg UInt8.toNat hc
        rw [digit_toNat] at this
        have h2 : (0x2B : UInt8).toNat = 43 := rfl
        omega
  match h : digits n with
  | [] => exact absurd h hne
  | b :: r => exact ⟨b, r, rfl, hall (n + 1) n b (by show b ∈ digits n; rw [h]; simp)⟩

theorem parseU64_digits {n : Nat} (hn : n < 2 ^ 64) : parseU64 (digits n) = some n := by
  obtain ⟨b, r, h, hb⟩ := digits_head n
  have := parseDigits_digitsN (n + 1) n (by omega) hn
  show parseU64 (digits n) = _
  change parseDigits 0 (digits n) = _ at this
  rw [h] at this ⊢
  unfold parseU64
  split
  · next heq => injection heq with h1 h2; exact absurd h1 hb
  · next heq => injection heq with h1 h2; subst h1 h2; exact this
  · next heq => cases heq

end Verif.Paths
