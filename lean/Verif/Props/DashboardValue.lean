import Verif.Model.DashboardValue
import Verif.Props.Dashboard

/-!
# Property C131: size and kind of a value in the dashboard
-/

namespace Verif.Dashboard

open Verif

variable (lossy : Bytes → Str) (parse : Bytes → Option Json) (compact : Str → Str)

/-- **C131** (partial: text).  The size shown for a text is its number of bytes. -/
theorem C131_text_partial (hl : ∀ s, Wire.validUtf8 s = true → lossy s = s) (s : Str) (hs : Wire.validUtf8 s = true) :
    valueSize compact (display lossy parse (Wire.tsAny (.str s))) = s.length := by
  have : display lossy parse (Wire.tsAny (.str s)) = .str (lossy s) := rfl
  rw [this, hl s hs]
  rfl

theorem hexOf_length (b : Bytes) : (Wire.hexOf b).length = 2 * b.length := by
  induction b with
  | nil => rfl
  | cons x b ih =>
    have : Wire.hexOf (x :: b) = Wire.hexDigit (x.toNat / 16) :: Wire.hexDigit (x.toNat % 16) :: Wire.hexOf b := rfl
    rw [this, List.length_cons, List.length_cons, ih, List.length_cons]
    omega

/-- **C131 is violated** by every buffer: the size shown is that of its hexadecimal text, never its own. -/
theorem C131_size_violated (b : Bytes) :
    valueSize compact (display lossy parse (Wire.tsAny (.raw b))) = 2 * b.length + 2 ∧
    valueSize compact (display lossy parse (Wire.tsAny (.raw b))) ≠ b.length := by
  have h : valueSize compact (display lossy parse (Wire.tsAny (.raw b))) = 2 * b.length + 2 := by
    have : display lossy parse (Wire.tsAny (.raw b)) = .str ([48, 120] ++ Wire.hexOf b) := rfl
    rw [this]
    simp [valueSize, valueText, hexOf_length]
  exact ⟨h, by omega⟩

/-- **C131**: what is shown as binary: exactly the buffers, and besides them the texts that begin with "0x" (as such or as JSON). -/
theorem C131_kind_only (hl : ∀ s, Wire.validUtf8 s = true → lossy s = s) (v : Wire.Val) (hv : Writable parse v) :
    valueBinary (display lossy parse (Wire.tsAny v)) = true ↔
      (∃ b, v = .raw b) ∨ (∃ s, v = .str (48 :: 120 :: s)) ∨ ∃ t s, v = .json t ∧ parse t = some (.str (48 :: 120 :: s)) := by
  have hpre : ∀ s : Str, [48, 120].isPrefixOf s = true ↔ ∃ r, s = 48 :: 120 :: r := by
    intro s
    rw [List.isPrefixOf_iff_prefix]
    exact ⟨fun ⟨r, h⟩ => ⟨r, h.symm⟩, fun ⟨r, h⟩ => ⟨r, h.symm⟩⟩
  cases v with
  | raw b =>
    have : display lossy parse (Wire.tsAny (.raw b)) = .str ([48, 120] ++ Wire.hexOf b) := rfl
    rw [this]
    exact ⟨fun _ => .inl ⟨b, rfl⟩, fun _ => (hpre _).2 ⟨_, rfl⟩⟩
  | str s =>
    have : display lossy parse (Wire.tsAny (.str s)) = .str (lossy s) := rfl
    rw [this, hl s hv]
    show [48, 120].isPrefixOf s = true ↔ _
    rw [hpre]
    constructor
    · rintro ⟨r, rfl⟩
      exact .inr (.inl ⟨r, rfl⟩)
    · rintro (⟨b, h⟩ | ⟨r, h⟩ | ⟨t, r, h, _⟩)
      · cases h
      · cases h; exact ⟨r, rfl⟩
      · cases h
  | json t =>
    obtain ⟨j, hj⟩ := Option.isSome_iff_exists.1 hv
    have : display lossy parse (Wire.tsAny (.json t)) = (parse t).getD (.str (lossy t)) := rfl
    rw [this, hj, Option.getD_some]
    cases j with
    | str s =>
      show [48, 120].isPrefixOf s = true ↔ _
      rw [hpre]
      constructor
      · rintro ⟨r, rfl⟩
        exact .inr (.inr ⟨t, r, rfl, hj⟩)
      · rintro (⟨b, h⟩ | ⟨r, h⟩ | ⟨t', r, h, h'⟩)
        · cases h
        · cases h
        · cases h
          rw [hj] at h'
          cases h'
          exact ⟨r, rfl⟩
    | null | other _ =>
      refine ⟨fun h => (by cases h), ?_⟩
      rintro (⟨b, h⟩ | ⟨r, h⟩ | ⟨t', r, h, h'⟩)
      · cases h
      · cases h
      · cases h
        rw [hj] at h'
        cases h'

/-- **C131 is violated** by texts such as "0xff": they are shown as binary data. -/
theorem C131_kind_violated (hl : ∀ s, Wire.validUtf8 s = true → lossy s = s) :
    valueBinary (display lossy parse (Wire.tsAny (.str [48, 120, 102, 102]))) = true :=
  (C131_kind_only lossy parse hl (.str [48, 120, 102, 102]) (by show Wire.validUtf8 _ = true; decide)).2 (.inr (.inl ⟨_, rfl⟩))

/-! ### Cases -/

example : valueSize id (display id (fun _ => none) (Wire.tsAny (.str [195, 169]))) = 2 ∧ Wire.validUtf8 [195, 169] = true := by decide
example : valueSize id (display id (fun _ => none) (Wire.tsAny (.raw [1, 2, 3]))) = 8 := by decide
example : Writable (fun _ => some (.str [48, 120])) (.json [34, 48, 120, 34]) := rfl

end Verif.Dashboard
