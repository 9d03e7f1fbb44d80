import Verif.Model.Wire

/-!
# Lemmas about frames
-/

namespace Verif.Wire

theorem be32_length (v : Nat) : (be32 v).length = 4 := rfl
theorem be64_length (v : Nat) : (be64 v).length = 8 := rfl

theorem beVal_append (a b : Bytes) : beVal (a ++ b) = beVal a * 256 ^ b.length + beVal b := by
  unfold beVal
  rw [List.foldl_append]
  generalize List.foldl (fun a (x : UInt8) => a * 256 + x.toNat) 0 a = n
  induction b generalizing n with
  | nil => simp
  | cons x b ih =>
    rw [List.foldl_cons, ih, List.foldl_cons, ih (0 * 256 + x.toNat), List.length_cons, Nat.pow_succ]
    simp only [Nat.zero_mul, Nat.zero_add, Nat.add_mul]
    rw [Nat.mul_comm (256 ^ b.length) 256, ← Nat.mul_assoc]
    omega

theorem beVal_be32 (v : Nat) : beVal (be32 v) = v % 2 ^ 32 := by
  simp only [beVal, be32, List.foldl_cons, List.foldl_nil, UInt8.toNat_ofNat']
  omega

theorem beVal_be32_lt {v : Nat} (h : v < 2 ^ 32) : beVal (be32 v) = v := by
  rw [beVal_be32, Nat.mod_eq_of_lt h]

theorem beVal_be64 (v : Nat) : beVal (be64 v) = v % 2 ^ 64 := by
  unfold be64
  rw [beVal_append, beVal_be32, beVal_be32, be32_length]
  omega

theorem beVal_be64_lt {v : Nat} (h : v < 2 ^ 64) : beVal (be64 v) = v := by
  rw [beVal_be64, Nat.mod_eq_of_lt h]

theorem beVal_lt (b : Bytes) : beVal b < 256 ^ b.length := by
  induction b with
  | nil => decide
  | cons x b ih =>
    rw [← List.singleton_append, beVal_append, List.length_append, Nat.pow_add]
    have : beVal [x] < 256 := by simp [beVal]; exact x.toNat_lt
    simp only [List.length_singleton, Nat.pow_one]
    have h2 : beVal [x] * 256 ^ b.length ≤ 255 * 256 ^ b.length := Nat.mul_le_mul_right _ (by omega)
    omega

/-- The header and payload of a frame with the given fields, followed by anything. -/
theorem split_frame (t o : UInt8) (id : Nat) (p rest : Bytes) :
    let b := (t :: o :: (be32 id ++ be32 p.length ++ p)) ++ rest
    b.length = 10 + p.length + rest.length ∧ b.getD 0 0 = t ∧ b.getD 1 0 = o
      ∧ (b.drop 2).take 4 = be32 id ∧ (b.drop 6).take 4 = be32 p.length
      ∧ (b.drop 10).take p.length = p ∧ b.drop (10 + p.length) = rest := by
  intro b
  have hb : b = t :: o :: (be32 id ++ (be32 p.length ++ (p ++ rest))) := by simp [b]
  have h10 : b.drop 10 = p ++ rest := by
    rw [hb]
    rfl
  refine ⟨?_, rfl, rfl, rfl, rfl, ?_, ?_⟩
  · rw [hb]; simp [be32_length]; omega
  · rw [h10]; simp
  · rw [← List.drop_drop, h10]; simp

theorem decode_fields {max : Nat} {t o : UInt8} {id : Nat} {p rest : Bytes} (hid : id < 2 ^ 32) (hp : p.length < 2 ^ 32)
    (hm : p.length ≤ max) :
    decode max ((t :: o :: (be32 id ++ be32 p.length ++ p)) ++ rest) = .frame ⟨t, o, id, p⟩ rest := by
  obtain ⟨h1, h2, h3, h4, h5, h6, h7⟩ := split_frame t o id p rest
  unfold decode headerSize
  rw [if_neg (by omega)]
  simp only [h2, h3, h4, h5, beVal_be32_lt hp, beVal_be32_lt hid, h6, h7]
  rw [if_neg (by omega), if_neg (by omega)]

theorem tsDecode_fields {t o : UInt8} {id : Nat} {p rest : Bytes} (hid : id < 2 ^ 32) (hp : p.length < 2 ^ 32) :
    tsDecode ((t :: o :: (be32 id ++ be32 p.length ++ p)) ++ rest) = some (⟨t, o, id, p⟩, rest) := by
  obtain ⟨h1, h2, h3, h4, h5, h6, h7⟩ := split_frame t o id p rest
  unfold tsDecode
  rw [if_neg (by omega)]
  simp only [h2, h3, h4, h5, beVal_be32_lt hp, beVal_be32_lt hid, h6, h7]
  rw [if_neg (by omega)]

/-! ### Chunking -/

theorem take_drop_append {a b : Bytes} {i n : Nat} (h : i + n ≤ a.length) :
    ((a ++ b).drop i).take n = (a.drop i).take n := by
  rw [List.drop_append_of_le_length (by omega), List.take_append_of_le_length (by rw [List.length_drop]; omega)]

theorem getD_append' {a b : Bytes} {i : Nat} (h : i < a.length) : (a ++ b).getD i 0 = a.getD i 0 := by
  rw [List.getD_eq_getElem?_getD, List.getD_eq_getElem?_getD, List.getElem?_append_left h]

theorem decode_frame_length {max : Nat} {b rest : Bytes} {f : Frame} (h : decode max b = .frame f rest) :
    rest.length + 10 ≤ b.length ∧ f.payload.length ≤ max ∧ b.length = 10 + f.payload.length + rest.length := by
  unfold decode headerSize at h
  split at h
  · cases h
  · simp only at h
    split at h
    · cases h
    · split at h
      · cases h
      · next h1 h2 h3 =>
        cases h
        simp only [List.length_drop, List.length_take]
        omega

theorem decode_append {max : Nat} {a : Bytes} (b : Bytes) :
    (∀ f rest, decode max a = .frame f rest → decode max (a ++ b) = .frame f (rest ++ b))
    ∧ (decode max a = .err → decode max (a ++ b) = .err) := by
  unfold decode headerSize
  constructor
  · intro f rest h
    split at h
    · cases h
    · simp only at h
      split at h
      · cases h
      · split at h
        · cases h
        · next h1 h2 h3 =>
          cases h
          rw [if_neg (by rw [List.length_append]; omega), take_drop_append (by omega)]
          rw [if_neg h2, if_neg (by rw [List.length_append]; omega), take_drop_append (by omega), take_drop_append (by omega)]
          rw [List.drop_append_of_le_length (by omega)]
          congr 2
          · exact getD_append' (by omega)
          · exact getD_append' (by omega)
  · intro h
    split at h
    · cases h
    · simp only at h
      split at h
      · next h1 h2 =>
        rw [if_neg (by rw [List.length_append]; omega), take_drop_append (by omega), if_pos h2]
      · split at h <;> cases h

theorem drainN_fuel {max : Nat} (n m : Nat) (b : Bytes) (hn : b.length < n) (hm : b.length < m) :
    drainN max n b = drainN max m b := by
  induction n generalizing m b with
  | zero => omega
  | succ n ih =>
    cases m with
    | zero => omega
    | succ m =>
      unfold drainN
      cases hd : decode max b with
      | need => rfl
      | err => rfl
      | frame f rest =>
        have := (decode_frame_length hd).1
        simp only
        rw [ih m rest (by omega) (by omega)]

theorem drain_eq (max : Nat) (b : Bytes) :
    drain max b = match decode max b with
      | .need => ⟨[], b, false⟩
      | .err => ⟨[], b, true⟩
      | .frame f rest => { drain max rest with frames := f :: (drain max rest).frames } := by
  conv => lhs; unfold drain drainN
  cases hd : decode max b with
  | need => rfl
  | err => rfl
  | frame f rest =>
    have := (decode_frame_length hd).1
    simp only
    rw [drainN_fuel b.length (rest.length + 1) rest (by omega) (by omega)]
    rfl

/-- Induction along the frames of a buffer. -/
theorem drain_ind {max : Nat} {P : Bytes → Prop}
    (h0 : ∀ b, decode max b = .need → P b) (h1 : ∀ b, decode max b = .err → P b)
    (h2 : ∀ b f rest, decode max b = .frame f rest → P rest → P b) (b : Bytes) : P b := by
  suffices ∀ n, ∀ b : Bytes, b.length < n → P b from this (b.length + 1) b (by omega)
  intro n
  induction n with
  | zero => intro b hb; omega
  | succ n ih =>
    intro b hb
    cases hd : decode max b with
    | need => exact h0 b hd
    | err => exact h1 b hd
    | frame f rest =>
      have := (decode_frame_length hd).1
      exact h2 b f rest hd (ih rest (by omega))

theorem drain_append (max : Nat) (a b : Bytes) :
    drain max (a ++ b) =
      if (drain max a).err then { drain max (a ++ b) with frames := (drain max a).frames, err := true }
      else { drain max ((drain max a).rest ++ b) with
        frames := (drain max a).frames ++ (drain max ((drain max a).rest ++ b)).frames } := by
  induction a using drain_ind (max := max) with
  | h0 a hd => rw [drain_eq max a, hd]; simp
  | h1 a hd =>
    have h := (decode_append (max := max) (a := a) b).2 hd
    rw [drain_eq max a, hd, drain_eq max (a ++ b), h]; simp
  | h2 a f rest hd ih =>
    have h := (decode_append (max := max) (a := a) b).1 f rest hd
    rw [drain_eq max a, hd, drain_eq max (a ++ b), h]
    simp only
    split
    · next he => rw [if_pos he] at ih; rw [ih]
    · next he => rw [if_neg he] at ih; rw [ih]; simp

theorem drain_idem (max : Nat) (b : Bytes) (h : (drain max b).err = false) :
    decode max (drain max b).rest = .need := by
  induction b using drain_ind (max := max) with
  | h0 a hd => rw [drain_eq, hd]; exact hd
  | h1 a hd => rw [drain_eq, hd] at h; cases h
  | h2 a f rest hd ih => rw [drain_eq, hd] at h ⊢; exact ih h

theorem drain_payloads (max : Nat) (b : Bytes) : ∀ f ∈ (drain max b).frames, f.payload.length ≤ max := by
  induction b using drain_ind (max := max) with
  | h0 a hd => rw [drain_eq, hd]; intro f hf; cases hf
  | h1 a hd => rw [drain_eq, hd]; intro f hf; cases hf
  | h2 a f rest hd ih =>
    rw [drain_eq, hd]
    intro g hg
    rcases List.mem_cons.1 hg with rfl | hg
    · exact (decode_frame_length hd).2.1
    · exact ih g hg

theorem decode_need_length {max : Nat} {b : Bytes} (h : decode max b = .need) : b.length < 10 + max := by
  unfold decode headerSize at h
  split at h
  · omega
  · simp only at h
    split at h
    · cases h
    · split at h
      · omega
      · cases h

/-! ### The client -/

theorem tsDecode_length {b rest : Bytes} {f : Frame} (h : tsDecode b = some (f, rest)) : rest.length + 10 ≤ b.length := by
  unfold tsDecode at h
  split at h
  · cases h
  · simp only at h
    split at h
    · cases h
    · cases h
      simp only [List.length_drop]
      omega

theorem tsDecode_append {a : Bytes} (b : Bytes) {f : Frame} {rest : Bytes} (h : tsDecode a = some (f, rest)) :
    tsDecode (a ++ b) = some (f, rest ++ b) := by
  unfold tsDecode at h ⊢
  split at h
  · cases h
  · simp only at h
    split at h
    · cases h
    · next h1 h3 =>
      cases h
      rw [if_neg (by rw [List.length_append]; omega), take_drop_append (by omega)]
      rw [if_neg (by rw [List.length_append]; omega), take_drop_append (by omega), take_drop_append (by omega)]
      rw [List.drop_append_of_le_length (by omega)]
      congr 3
      · exact getD_append' (by omega)
      · exact getD_append' (by omega)

theorem tsDrainN_fuel (n m : Nat) (b : Bytes) (hn : b.length < n) (hm : b.length < m) :
    tsDrainN n b = tsDrainN m b := by
  induction n generalizing m b with
  | zero => omega
  | succ n ih =>
    cases m with
    | zero => omega
    | succ m =>
      unfold tsDrainN
      cases hd : tsDecode b with
      | none => rfl
      | some r =>
        obtain ⟨f, rest⟩ := r
        have := tsDecode_length hd
        simp only
        rw [ih m rest (by omega) (by omega)]

theorem tsDrain_none {b : Bytes} (h : tsDecode b = none) : tsDrain b = ([], b) := by
  unfold tsDrain tsDrainN; rw [h]

theorem tsDrain_some {b rest : Bytes} {f : Frame} (h : tsDecode b = some (f, rest)) :
    tsDrain b = (f :: (tsDrain rest).1, (tsDrain rest).2) := by
  conv => lhs; unfold tsDrain tsDrainN
  have := tsDecode_length h
  rw [h]
  simp only
  rw [tsDrainN_fuel b.length (rest.length + 1) rest (by omega) (by omega)]
  rfl

theorem tsDrain_append (a b : Bytes) :
    tsDrain (a ++ b) = ((tsDrain a).1 ++ (tsDrain ((tsDrain a).2 ++ b)).1, (tsDrain ((tsDrain a).2 ++ b)).2) := by
  suffices ∀ n, ∀ a : Bytes, a.length < n →
      tsDrain (a ++ b) = ((tsDrain a).1 ++ (tsDrain ((tsDrain a).2 ++ b)).1, (tsDrain ((tsDrain a).2 ++ b)).2) from
    this (a.length + 1) a (by omega)
  intro n
  induction n with
  | zero => intro a ha; omega
  | succ n ih =>
    intro a ha
    cases hd : tsDecode a with
    | none => rw [tsDrain_none hd]; simp
    | some r =>
      obtain ⟨f, rest⟩ := r
      have := tsDecode_length hd
      rw [tsDrain_some hd, tsDrain_some (tsDecode_append b hd), ih rest (by omega)]
      simp

end Verif.Wire
