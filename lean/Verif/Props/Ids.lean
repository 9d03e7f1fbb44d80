import Verif.Proofs.Command

/-!
# C05: the texts of message ids
-/

namespace Verif.Wire

open Verif

/-- The digits of an id, in either case. -/
def idDigits : Str :=
  [0x30, 0x31, 0x32, 0x33, 0x34, 0x35, 0x36, 0x37, 0x38, 0x39, 0x61, 0x62, 0x63, 0x64, 0x65, 0x66, 0x41, 0x42, 0x43, 0x44, 0x45, 0x46]

/-- Lower case. -/
def lower (c : UInt8) : UInt8 := if 0x41 ≤ c ∧ c ≤ 0x5A then c + 0x20 else c

theorem nibble_digit (c : UInt8) : (nibble c).isSome = decide (c ∈ idDigits) := by
  have h : ∀ n : Fin 256, (nibble (UInt8.ofNat n.val)).isSome = decide (UInt8.ofNat n.val ∈ idDigits) := by decide +kernel
  have := h ⟨c.toNat, c.toNat_lt⟩
  simpa using this

theorem nibble_lower {c : UInt8} {n : Nat} (hn : nibble c = some n) : n < 16 ∧ hexDigit n = lower c := by
  have h : ∀ n : Fin 256, ((nibble (UInt8.ofNat n.val)).all (fun k => decide (k < 16 ∧ hexDigit k = lower (UInt8.ofNat n.val)))) = true := by decide +kernel
  have := h ⟨c.toNat, c.toNat_lt⟩
  simp only [UInt8.ofNat_toNat, hn, Option.all_some] at this
  exact of_decide_eq_true this

theorem tsUuid_isSome (high : Option Nat) (t : Str) : (tsUuid high t).isSome = true ↔ ∀ c ∈ t, c = 0x2D ∨ c ∈ idDigits := by
  induction t generalizing high with
  | nil => simp [tsUuid]
  | cons c t ih =>
    unfold tsUuid
    by_cases hc : c = 0x2D
    · rw [if_pos hc, ih]
      simp [hc]
    · rw [if_neg hc]
      have hd := nibble_digit c
      cases hn : nibble c with
      | none =>
        rw [hn] at hd
        have : c ∉ idDigits := of_decide_eq_false hd.symm
        simp [hc, this]
      | some n =>
        rw [hn] at hd
        have : c ∈ idDigits := of_decide_eq_true hd.symm
        cases high with
        | none => simp only [ih]; simp [this]
        | some h => simp only [Option.isSome_map, ih]; simp [this]

theorem tsUuid_text (t : Str) : ∀ b, (t.length % 2 = 0 → (∀ c ∈ t, c ≠ 0x2D) → tsUuid none t = some b → hexOf b = t.map lower) ∧
    ∀ h, h < 16 → t.length % 2 = 1 → (∀ c ∈ t, c ≠ 0x2D) → tsUuid (some h) t = some b → hexOf b = hexDigit h :: t.map lower := by
  induction t with
  | nil =>
    intro b
    refine ⟨fun _ _ hb => ?_, fun h _ hl => by simp at hl⟩
    injection hb with hb; subst hb; rfl
  | cons c t ih =>
    intro b
    constructor
    · intro hl hd hb
      unfold tsUuid at hb
      rw [if_neg (hd c (by simp))] at hb
      cases hn : nibble c with
      | none => rw [hn] at hb; cases hb
      | some n =>
        rw [hn] at hb
        obtain ⟨h1, h2⟩ := nibble_lower hn
        rw [List.length_cons] at hl
        rw [(ih b).2 n h1 (by omega) (fun c hc => hd c (by simp [hc])) hb, h2]
        rfl
    · intro h h16 hl hd hb
      unfold tsUuid at hb
      rw [if_neg (hd c (by simp))] at hb
      cases hn : nibble c with
      | none => rw [hn] at hb; cases hb
      | some n =>
        rw [hn] at hb
        obtain ⟨h1, h2⟩ := nibble_lower hn
        rw [List.length_cons] at hl
        obtain ⟨r, hr, rfl⟩ := Option.map_eq_some_iff.1 hb
        have hv : (UInt8.ofNat (h * 16 + n)).toNat = h * 16 + n := by
          rw [UInt8.toNat_ofNat']; omega
        show hexDigit ((UInt8.ofNat (h * 16 + n)).toNat / 16) :: hexDigit ((UInt8.ofNat (h * 16 + n)).toNat % 16) :: hexOf r = _
        rw [hv, show (h * 16 + n) / 16 = h by omega, show (h * 16 + n) % 16 = n by omega, h2,
          (ih r).1 (by omega) (fun c hc => hd c (by simp [hc])) hr]
        rfl

/-- **C05** The client refuses, for an id, every text with something else than hexadecimal digits and hyphens, and no other. -/
theorem C05_ids_only (text : Str) : (tsUuid none text).isSome = true ↔ ∀ c ∈ text, c = 0x2D ∨ c ∈ idDigits := tsUuid_isSome none text

/-- **C05** What it sends for a text with an even number of digits are these digits. -/
theorem C05_ids_text (text : Str) (b : Bytes) (he : (text.filter (fun c => c ≠ 0x2D)).length % 2 = 0) (h : tsUuid none text = some b) :
    hexOf b = (text.filter (fun c => c ≠ 0x2D)).map lower := by
  rw [tsUuid_dashes] at h
  exact (tsUuid_text _ b).1 he (fun c hc => by simpa using (List.mem_filter.1 hc).2) h

example : tsUuid none [0x61, 0x2D, 0x67] = none ∧ tsUuid none [0x2D, 0x62, 0x46] = some [0xBF] ∧ hexOf [0xBF] = [0x62, 0x66] := by decide

end Verif.Wire
