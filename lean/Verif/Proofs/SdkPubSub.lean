import Verif.Spec.SdkPubSub
import Verif.Proofs.PubSub

namespace Verif.PubSub.Sdk

open Verif.PubSub

theorem matchesFrom_iff (t p : List Str) (i : Nat) (hi : i ≤ t.length) :
    matchesFrom t p i = matchB p (t.drop i) := by
  induction p generalizing i with
  | nil =>
    simp only [matchesFrom, matchB]
    by_cases h : i = t.length
    · subst h; simp
    · rw [decide_eq_false h]
      have : t.drop i ≠ [] := by
        intro h'
        have := congrArg List.length h'
        simp at this; omega
      simp [this]
  | cons x p ih =>
    unfold matchesFrom matchB
    by_cases hx : x = hashS
    · subst hx; simp [plusS_ne_hashS.symm]
    · rw [if_neg hx]
      by_cases hlt : i < t.length
      · have hd : t.drop i = t[i] :: t.drop (i + 1) := List.drop_eq_getElem_cons hlt
        have hg : t[i]? = some t[i] := List.getElem?_eq_getElem hlt
        rw [hd, hg, ih (i + 1) hlt, decide_eq_false (Nat.not_le.2 hlt)]
        simp only [Bool.false_or]
        by_cases hp : x = plusS
        · subst hp; simp
        · simp only [hp, hx, ne_eq, not_false_eq_true, decide_true, Bool.true_and, if_false]
          by_cases he : x = t[i]
          · simp [he]
          · simp [he]
      · have hle : t.length ≤ i := Nat.le_of_not_lt hlt
        rw [decide_eq_true hle, List.drop_eq_nil_of_le hle]
        simp [hx]

/-- The code's reading of patterns, as a boolean on levels, agrees with routing along edges. -/
theorem matchB_ematch (p t : List Str) : matchB p t = true ↔ EMatch (edges p) t := by
  induction p generalizing t with
  | nil =>
    cases t with
    | nil => exact ⟨fun _ => .done, fun _ => rfl⟩
    | cons y t => exact ⟨fun h => by simp [matchB] at h, fun h => by cases h⟩
  | cons x p ih =>
    unfold matchB edges
    by_cases hx : x = plusS
    · subst hx
      rw [if_pos rfl, if_neg plusS_ne_hashS, if_pos rfl]
      cases t with
      | nil => exact ⟨fun h => by simp at h, fun h => by cases h⟩
      | cons y t => exact ⟨fun h => .plus ((ih t).1 h), fun h => by cases h with | plus h => exact (ih t).2 h⟩
    · rw [if_neg hx]
      by_cases hh : x = hashS
      · rw [if_pos hh, if_pos hh]; exact ⟨fun _ => .hash, fun _ => rfl⟩
      · rw [if_neg hh, if_neg hh, if_neg hx]
        cases t with
        | nil => exact ⟨fun h => by simp at h, fun h => by cases h⟩
        | cons y t =>
          simp only [Bool.and_eq_true, decide_eq_true_eq]
          constructor
          · rintro ⟨rfl, h⟩; exact .kid ((ih t).1 h)
          · intro h; cases h with | kid h => exact ⟨rfl, (ih t).2 h⟩

theorem matchesParts_iff (p t : List Str) : matchesParts p t = true ↔ EMatch (edges p) t := by
  unfold matchesParts
  rw [matchesFrom_iff t p 0 (Nat.zero_le _), List.drop_zero, matchB_ematch]

/-- Levels of a topic without `+` and `#` are literal. -/
theorem split_noWild {s : Str} (h : isWildcard s = false) : ∀ x ∈ split s, x ≠ plusS ∧ x ≠ hashS := by
  have key : ∀ s : Str, ∀ x ∈ split s, ∀ b ∈ x, b ∈ s := by
    intro s
    induction s with
    | nil => intro x hx b hb; simp [split] at hx; subst hx; cases hb
    | cons c t ih =>
      intro x hx b hb
      unfold split at hx
      split at hx
      · rcases List.mem_cons.1 hx with rfl | hx
        · cases hb
        · exact List.mem_cons_of_mem _ (ih x hx b hb)
      · cases hs : split t with
        | nil => exact absurd hs (split_ne_nil t)
        | cons y l =>
          rw [hs] at hx
          simp only [List.headD_cons, List.tail_cons, List.mem_cons] at hx
          rcases hx with rfl | hx
          · rcases List.mem_cons.1 hb with rfl | hb
            · exact List.mem_cons_self ..
            · exact List.mem_cons_of_mem _ (ih y (by rw [hs]; exact List.mem_cons_self ..) b hb)
          · exact List.mem_cons_of_mem _ (ih x (by rw [hs]; exact List.mem_cons_of_mem _ hx) b hb)
  intro x hx
  simp only [isWildcard, Bool.or_eq_false_iff, List.contains_eq_mem, decide_eq_false_iff_not] at h
  constructor
  · rintro rfl; exact h.1 (key s _ hx 43 (by simp [plusS]))
  · rintro rfl; exact h.2 (key s _ hx 35 (by simp [hashS]))

theorem ematch_literal {p t : List Str} (h : ∀ x ∈ p, x ≠ plusS ∧ x ≠ hashS) : EMatch (edges p) t ↔ p = t := by
  induction p generalizing t with
  | nil =>
    constructor
    · intro h; cases h; rfl
    · rintro rfl; exact .done
  | cons x p ih =>
    have hx := h x (List.mem_cons_self ..)
    unfold edges
    rw [if_neg hx.2, if_neg hx.1]
    have ih := @ih
    constructor
    · intro hm
      cases hm with
      | kid hm => rw [(ih (fun y hy => h y (List.mem_cons_of_mem _ hy))).1 hm]
    · rintro rfl
      exact .kid ((ih (fun y hy => h y (List.mem_cons_of_mem _ hy))).2 rfl)

theorem accepts_iff (p t : Str) : accepts p t = true ↔ EMatch (edges (split p)) (split t) := by
  unfold accepts
  split
  · exact matchesParts_iff _ _
  · next h =>
    rw [ematch_literal (split_noWild (Bool.not_eq_true _ ▸ h)), decide_eq_true_eq]
    exact ⟨fun h => h ▸ rfl, split_inj⟩

theorem accepts_matches {p t : Str} (h : hashLast (split p) = true) :
    accepts p t = true ↔ Matches (split p) (split t) := (accepts_iff p t).trans (ematch_edges h)

structure ClientInv (s : Client) (l : List Call) : Prop where
  ex : ∀ p, p ∈ s.exact ↔ heldRev p l = true ∧ isWildcard p = false
  wi : ∀ p, p ∈ s.wild ↔ heldRev p l = true ∧ isWildcard p = true
  nodup : s.wild.Nodup

theorem ClientInv.step {s : Client} {l : List Call} (hi : ClientInv s l) (o : Call) :
    ClientInv (s.step o) (o :: l) := by
  cases o with
  | subscribe t =>
    simp only [Client.step, Client.subscribe]
    have hheld : (t ∈ s.exact ∨ t ∈ s.wild) ↔ heldRev t l = true := by
      rw [hi.ex, hi.wi, ← and_or_left]
      cases isWildcard t <;> simp
    split
    · next h =>
      have h' := hheld.1 h
      have : ∀ p, heldRev p (.subscribe t :: l) = heldRev p l := by
        intro p
        simp only [heldRev]
        by_cases hp : t = p
        · subst hp; simp [h']
        · simp [hp]
      exact ⟨fun p => by rw [this]; exact hi.ex p, fun p => by rw [this]; exact hi.wi p, hi.nodup⟩
    · next h =>
      split
      · next hw =>
        refine ⟨fun p => ?_, fun p => ?_, ?_⟩
        · rw [hi.ex]
          simp only [heldRev, Bool.or_eq_true, decide_eq_true_eq]
          constructor
          · rintro ⟨h1, h2⟩; exact ⟨Or.inr h1, h2⟩
          · rintro ⟨rfl | h1, h2⟩
            · rw [hw] at h2; cases h2
            · exact ⟨h1, h2⟩
        · simp only [List.mem_append, List.mem_singleton, hi.wi, heldRev, Bool.or_eq_true, decide_eq_true_eq]
          constructor
          · rintro (⟨h1, h2⟩ | rfl)
            · exact ⟨Or.inr h1, h2⟩
            · exact ⟨Or.inl rfl, hw⟩
          · rintro ⟨rfl | h1, h2⟩
            · exact Or.inr rfl
            · exact Or.inl ⟨h1, h2⟩
        · simp only [List.nodup_append]
          refine ⟨hi.nodup, by simp, ?_⟩
          rintro a ha b hb rfl
          rw [List.mem_singleton] at hb
          subst hb
          exact h (Or.inr ha)
      · next hw =>
        have hw : isWildcard t = false := Bool.not_eq_true _ ▸ hw
        refine ⟨fun p => ?_, fun p => ?_, hi.nodup⟩
        · simp only [List.mem_append, List.mem_singleton, hi.ex, heldRev, Bool.or_eq_true, decide_eq_true_eq]
          constructor
          · rintro (⟨h1, h2⟩ | rfl)
            · exact ⟨Or.inr h1, h2⟩
            · exact ⟨Or.inl rfl, hw⟩
          · rintro ⟨rfl | h1, h2⟩
            · exact Or.inr rfl
            · exact Or.inl ⟨h1, h2⟩
        · rw [hi.wi]
          simp only [heldRev, Bool.or_eq_true, decide_eq_true_eq]
          constructor
          · rintro ⟨h1, h2⟩; exact ⟨Or.inr h1, h2⟩
          · rintro ⟨rfl | h1, h2⟩
            · rw [hw] at h2; cases h2
            · exact ⟨h1, h2⟩
  | unsubscribe t =>
    simp only [Client.step, Client.unsubscribe]
    refine ⟨fun p => ?_, fun p => ?_, hi.nodup.sublist List.filter_sublist⟩
    · simp only [mem_setRemove, hi.ex, heldRev, Bool.and_eq_true, decide_eq_true_eq]
      constructor
      · rintro ⟨⟨h1, h2⟩, h3⟩; exact ⟨⟨fun h => h3 h.symm, h1⟩, h2⟩
      · rintro ⟨⟨h3, h1⟩, h2⟩; exact ⟨⟨h1, h2⟩, fun h => h3 h.symm⟩
    · simp only [mem_setRemove, hi.wi, heldRev, Bool.and_eq_true, decide_eq_true_eq]
      constructor
      · rintro ⟨⟨h1, h2⟩, h3⟩; exact ⟨⟨fun h => h3 h.symm, h1⟩, h2⟩
      · rintro ⟨⟨h3, h1⟩, h2⟩; exact ⟨⟨h1, h2⟩, fun h => h3 h.symm⟩

theorem ClientInv.of_run (l : List Call) : ClientInv (Client.run {} l) l.reverse := by
  have : ∀ (l r : List Call) (s : Client), ClientInv s r → ClientInv (Client.run s l) (l.reverse ++ r) := by
    intro l
    induction l with
    | nil => intro r s h; exact h
    | cons o l ih =>
      intro r s h
      have := ih (o :: r) (s.step o) (h.step o)
      simpa [Client.run] using this
  simpa using this l [] {} ⟨fun p => by simp [heldRev], fun p => by simp [heldRev], List.nodup_nil⟩

end Verif.PubSub.Sdk
