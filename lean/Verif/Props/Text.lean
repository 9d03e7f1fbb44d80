import Verif.Spec.Text
import Verif.Proofs.Command

/-!
# Which names are text (C05)
-/

namespace Verif.Wire

theorem IsText.nil : IsText [] := ⟨[], by simp, rfl⟩

theorem IsText.cons {n : Nat} (h : IsScalar n) {b : List UInt8} (hb : IsText b) : IsText (utf8 n ++ b) := by
  obtain ⟨cs, h1, h2⟩ := hb
  exact ⟨n :: cs, by simpa using ⟨h, h1⟩, by simp [h2]⟩

theorem toNat_ofNat {n : Nat} (h : n < 256) : (UInt8.ofNat n).toNat = n := by
  simp; omega

theorem eq_ofNat {a : UInt8} {n : Nat} (h : a.toNat = n) : a = UInt8.ofNat n := by
  rw [← h]; simp

theorem valid_of_text : ∀ cs : List Nat, (∀ c ∈ cs, IsScalar c) → validUtf8 (cs.flatMap utf8) = true := by
  intro cs
  induction cs with
  | nil => intro _; rfl
  | cons n cs ih =>
    intro h
    have hn : IsScalar n := h n List.mem_cons_self
    have ih := ih (fun c hc => h c (List.mem_cons_of_mem _ hc))
    rw [List.flatMap_cons]
    generalize cs.flatMap utf8 = r at ih
    unfold IsScalar at hn
    unfold utf8
    split
    · rw [List.singleton_append, validUtf8.eq_def]
      simp only
      rw [toNat_ofNat (by omega), if_pos (by omega)]
      exact ih
    · split
      · simp only [List.cons_append, List.nil_append]
        rw [validUtf8.eq_def]
        simp only
        rw [toNat_ofNat (by omega), if_neg (by omega)]
        rw [if_pos (by omega), isCont, toNat_ofNat (by omega), ih]
        simp; omega
      · split
        · simp only [List.cons_append, List.nil_append]
          rw [validUtf8.eq_def]
          simp only
          rw [toNat_ofNat (by omega), if_neg (by omega)]
          rw [if_neg (by omega), ih]
          simp only [isCont]
          rw [toNat_ofNat (by omega), toNat_ofNat (by omega)]
          simp only [Bool.and_true]
          split
          · simp; omega
          · split
            · simp; omega
            · rw [if_pos (by omega)]; simp; omega
        · simp only [List.cons_append, List.nil_append]
          rw [validUtf8.eq_def]
          simp only
          rw [toNat_ofNat (by omega), if_neg (by omega)]
          rw [if_neg (by omega), if_neg (by omega), if_neg (by omega), if_neg (by omega), ih]
          simp only [isCont]
          rw [toNat_ofNat (by omega), toNat_ofNat (by omega), toNat_ofNat (by omega)]
          split
          · simp; omega
          · split
            · simp; omega
            · rw [if_pos (by omega)]; simp; omega

theorem text_of_valid : ∀ (k : Nat) (b : Bytes), b.length ≤ k → validUtf8 b = true → IsText b := by
  intro k
  induction k with
  | zero =>
    intro b hb _
    rw [List.length_eq_zero_iff.1 (Nat.le_zero.1 hb)]
    exact .nil
  | succ k ih =>
    intro b hb h
    cases b with
    | nil => exact .nil
    | cons a t =>
      have ha := a.toNat_lt
      rw [validUtf8.eq_def] at h
      simp only at h
      simp only [List.length_cons] at hb
      split at h
      · next h1 =>
        have := (ih t (by omega) h).cons (n := a.toNat) (.inl (by omega))
        rw [utf8, if_pos (by omega), ← eq_ofNat rfl] at this
        exact this
      · next h1 =>
        cases t with
        | nil => cases h
        | cons b t1 =>
          have hb' := b.toNat_lt
          simp only [List.length_cons] at hb
          simp only at h
          split at h
          · next h2 =>
            simp only [isCont, Bool.and_eq_true, decide_eq_true_eq] at h
            have := (ih t1 (by omega) h.2).cons (n := (a.toNat - 192) * 64 + (b.toNat - 128)) (.inl (by omega))
            rw [utf8, if_neg (by omega), if_pos (by omega), ← eq_ofNat (a := a) (by omega), ← eq_ofNat (a := b) (by omega)] at this
            exact this
          · next h2 =>
            cases t1 with
            | nil => cases h
            | cons c t2 =>
              have hc' := c.toNat_lt
              simp only [List.length_cons] at hb
              simp only at h
              have three : 224 ≤ a.toNat → a.toNat ≤ 239 → 128 ≤ b.toNat → b.toNat ≤ 191 → 128 ≤ c.toNat → c.toNat ≤ 191 →
                  (a.toNat = 224 → 160 ≤ b.toNat) → (a.toNat = 237 → b.toNat ≤ 159) → validUtf8 t2 = true →
                  IsText (a :: b :: c :: t2) := by
                intro g1 g2 g3 g4 g5 g6 g7 g8 g9
                have := (ih t2 (by omega) g9).cons
                  (n := (a.toNat - 224) * 4096 + (b.toNat - 128) * 64 + (c.toNat - 128)) (by unfold IsScalar; omega)
                rw [utf8, if_neg (by omega), if_neg (by omega), if_pos (by omega), ← eq_ofNat (a := a) (by omega),
                  ← eq_ofNat (a := b) (by omega), ← eq_ofNat (a := c) (by omega)] at this
                exact this
              split at h
              · simp only [isCont, Bool.and_eq_true, decide_eq_true_eq] at h
                exact three (by omega) (by omega) (by omega) (by omega) (by omega) (by omega) (by omega) (by omega) h.2
              · split at h
                · simp only [isCont, Bool.and_eq_true, decide_eq_true_eq] at h
                  exact three (by omega) (by omega) (by omega) (by omega) (by omega) (by omega) (by omega) (by omega) h.2
                · split at h
                  · simp only [isCont, Bool.and_eq_true, decide_eq_true_eq] at h
                    exact three (by omega) (by omega) (by omega) (by omega) (by omega) (by omega) (by omega) (by omega) h.2
                  · cases t2 with
                    | nil => cases h
                    | cons d t3 =>
                      have hd' := d.toNat_lt
                      simp only [List.length_cons] at hb
                      simp only at h
                      have four : 240 ≤ a.toNat → a.toNat ≤ 244 → 128 ≤ b.toNat → b.toNat ≤ 191 → 128 ≤ c.toNat →
                          c.toNat ≤ 191 → 128 ≤ d.toNat → d.toNat ≤ 191 →
                          (a.toNat = 240 → 144 ≤ b.toNat) → (a.toNat = 244 → b.toNat ≤ 143) → validUtf8 t3 = true →
                          IsText (a :: b :: c :: d :: t3) := by
                        intro g1 g2 g3 g4 g5 g6 g7 g8 g9 g10 g11
                        have := (ih t3 (by omega) g11).cons
                          (n := (a.toNat - 240) * 262144 + (b.toNat - 128) * 4096 + (c.toNat - 128) * 64 + (d.toNat - 128))
                          (by unfold IsScalar; omega)
                        rw [utf8, if_neg (by omega), if_neg (by omega), if_neg (by omega), ← eq_ofNat (a := a) (by omega),
                          ← eq_ofNat (a := b) (by omega), ← eq_ofNat (a := c) (by omega), ← eq_ofNat (a := d) (by omega)] at this
                        exact this
                      repeat' split at h
                      all_goals try (cases h; done)
                      all_goals
                        simp only [isCont, Bool.and_eq_true, decide_eq_true_eq] at h
                        exact four (by omega) (by omega) (by omega) (by omega) (by omega) (by omega) (by omega) (by omega)
                          (by omega) (by omega) h.2

/-- **C05** The names that can travel are exactly the texts of at most `2^32 - 1` bytes: whatever text a client uses as a
name is accepted, and nothing else is. -/
theorem C05_names_text (s : Str) : StrOk s ↔ s.length < 2 ^ 32 ∧ IsText s := by
  unfold StrOk
  refine and_congr_right (fun _ => ⟨text_of_valid s.length s (Nat.le_refl _), ?_⟩)
  rintro ⟨cs, h, rfl⟩
  exact valid_of_text cs h

/-- "é€😀" -/
example : IsText [0xC3, 0xA9, 0xE2, 0x82, 0xAC, 0xF0, 0x9F, 0x98, 0x80] :=
  ⟨[0xE9, 0x20AC, 0x1F600], by simp [IsScalar], by decide⟩

/-- An overlong zero is no text. -/
example : ¬ IsText [0xC0, 0x80] := fun h => by
  have := ((C05_names_text _).2 ⟨by decide, h⟩).2
  exact absurd this (by decide)

/-! ### What the server acts upon -/

theorem getInt_lt {n : Nat} {b r : Bytes} {v : Nat} (h : getInt n b = .ok (v, r)) : v < 256 ^ n := by
  unfold getInt at h
  split at h
  · cases h
  · cases h
    have := beVal_lt (b.take n)
    rwa [List.length_take, Nat.min_eq_left (by omega)] at this

theorem rdU32_lt {b r : Bytes} {v : Nat} (h : rdU32 b = .ok (v, r)) : v < 2 ^ 32 := by
  unfold rdU32 at h
  split at h
  · cases h
  · exact getInt_lt h

theorem rdU64_lt {b r : Bytes} {v : Nat} (h : rdU64 b = .ok (v, r)) : v < 2 ^ 64 := by
  unfold rdU64 at h
  split at h
  · cases h
  · exact getInt_lt h

theorem getBytes_len {n : Nat} {b r c : Bytes} (h : getBytes n b = .ok (c, r)) : c.length = n := by
  unfold getBytes at h
  split at h
  · cases h
  · cases h
    rw [List.length_take, Nat.min_eq_left (by omega)]

theorem rdUuid_len {b r c : Bytes} (h : rdUuid b = .ok (c, r)) : c.length = 16 := by
  unfold rdUuid at h
  split at h
  · cases h
  · exact getBytes_len h

theorem rdString_text {b r : Bytes} {s : Str} (h : rdString b = .ok (s, r)) : StrOk s := by
  unfold rdString at h
  obtain ⟨⟨len, b1⟩, h1, h⟩ := Res.bind_ok h
  simp only at h
  split at h
  · cases h
  · obtain ⟨⟨c, b2⟩, h2, h⟩ := Res.bind_ok h
    simp only at h
    split at h
    · next hv =>
      cases h
      refine ⟨?_, hv⟩
      rw [getBytes_len h2]
      exact rdU32_lt h1
    · cases h

theorem Res.bind_post {α β : Type} {x : Res α} {f : α → Res β} {P : β → Prop}
    (h : ∀ a, x = .ok a → ∀ r, f a = .ok r → P r) : ∀ r, (x >>= f) = .ok r → P r := by
  intro r hr
  obtain ⟨a, h1, h2⟩ := Res.bind_ok hr
  exact h a h1 r h2

/-- One branch of a parser. -/
macro "wellformed" : tactic => `(tactic| (
  repeat (first | refine Res.bind_post fun ⟨_, _⟩ _ => ?_ | refine Res.bind_post fun _ _ => ?_)
  intro r hr
  cases hr
  simp only [Cmd.Fits]
  refine ⟨?_, rfl⟩
  repeat' (first
    | (apply rdString_text; assumption)
    | (apply rdU32_lt; assumption)
    | (apply rdU64_lt; assumption)
    | (apply rdUuid_len; assumption)
    | (refine ⟨?_, ?_⟩))))

/-- **C04** Whatever bytes arrive: what the server acts upon is a command that a client could have meant: the opcode of
the command is the opcode of the request, its names are text, its ids have 16 bytes, its numbers are in range. -/
theorem C04_wellformed (sd : Serde) (op : UInt8) (b : Bytes) (cmd : Cmd) (h : parse sd op b = .ok cmd) :
    cmd.Fits ∧ cmd.opcode = op.toNat := by
  suffices hs : ∀ cmd, parse sd op b = .ok cmd → cmd.Fits ∧ cmd.opcode = op.toNat from hs cmd h
  clear h cmd
  have none : ∀ cmd, (Res.err : Res Cmd) = .ok cmd → cmd.Fits ∧ cmd.opcode = op.toNat := fun _ h => by cases h
  unfold parse
  split
  · unfold parseStore
    split
    case h_4 => exact none
    all_goals (rename_i ho; rw [ho]; wellformed)
  · unfold parseQueue
    split
    case h_12 => exact none
    all_goals (rename_i ho; rw [ho]; wellformed)
  · unfold parsePubSub
    split
    case h_4 => exact none
    all_goals (rename_i ho; rw [ho]; wellformed)
  · unfold parseStream
    split
    case h_10 => exact none
    case h_6 ho =>
      rw [ho]
      refine Res.bind_post fun a h1 => ?_
      obtain ⟨s1, r1⟩ := a
      refine Res.bind_post fun a h2 => ?_
      obtain ⟨s2, r2⟩ := a
      refine Res.bind_post fun a h3 => ?_
      obtain ⟨v, r3⟩ := a
      intro r hr
      simp only at hr
      split at hr
      · cases hr; exact ⟨⟨rdString_text h1, rdString_text h2⟩, rfl⟩
      · cases hr; exact ⟨⟨rdString_text h1, rdString_text h2⟩, rfl⟩
      · cases hr
    all_goals (rename_i ho; rw [ho]; wellformed)
  · exact none
  · exact none

/-! Both kinds of requests exist. -/

example (sd : Serde) : parse sd 0x22 [0, 0, 0, 2, 0xC3, 0xA9] = .ok (.subscribe [0xC3, 0xA9]) := by
  have : parse sd 0x22 [0, 0, 0, 2, 0xC3, 0xA9] = parsePubSub sd 0x22 [0, 0, 0, 2, 0xC3, 0xA9] := rfl
  rw [this]
  have : rdString [0, 0, 0, 2, 0xC3, 0xA9] = .ok ([0xC3, 0xA9], []) := by decide
  simp [parsePubSub, this]; rfl

end Verif.Wire
