import Verif.Spec.SdkHandles
import Verif.Proofs.SdkConnection

/-!
# C127: one consumer for each queue of a client
-/

namespace Verif.Sdk.Handles

open Verif
open Verif.Sdk.QueueLoop (Loop Out)

theorem since_nil {α : Type} {P Q : α → Prop} : ¬ Since P Q [] := by
  rintro ⟨u, x, v, h, _⟩
  cases u <;> cases h

theorem since_snoc {α : Type} {P Q : α → Prop} {tr : List α} {s : α} : Since P Q (tr ++ [s]) ↔ P s ∨ (Since P Q tr ∧ ¬ Q s) := by
  constructor
  · rintro ⟨u, x, v, h, hp, hq⟩
    rcases List.eq_nil_or_concat v with rfl | ⟨v', y, rfl⟩
    · have := List.append_inj' h rfl
      simp only [List.cons.injEq, and_true] at this
      exact .inl (this.2 ▸ hp)
    · rw [List.concat_eq_append, ← List.cons_append, ← List.append_assoc] at h
      have h' := List.append_inj' h rfl
      simp only [List.cons.injEq, and_true] at h'
      obtain ⟨rfl, rfl⟩ := h'
      exact .inr ⟨⟨u, x, v', rfl, hp, fun y hy => hq y (by simp [hy])⟩, hq _ (by simp)⟩
  · rintro (h | ⟨⟨u, x, v, rfl, hp, hq⟩, hs⟩)
    · exact ⟨tr, s, [], rfl, h, fun _ h => nomatch h⟩
    · refine ⟨u, x, v ++ [s], by simp, hp, fun y hy => ?_⟩
      rcases List.mem_append.1 hy with hy | hy
      · exact hq y hy
      · rw [List.mem_singleton.1 hy]; exact hs

/-! ### Loops -/

theorem loop_outs (k : Nat) (l : Loop) (e : QueueLoop.Ev) : (QueueLoop.step k l e).2 = [] ∨ ∃ o, (QueueLoop.step k l e).2 = [o] := by
  cases e <;> simp only [QueueLoop.step] <;> repeat' split
  all_goals first | exact .inl rfl | exact .inr ⟨_, rfl⟩ | simp_all

theorem loop_finished (k : Nat) (l : Loop) (e : QueueLoop.Ev) :
    (Out.finished ∈ (QueueLoop.step k l e).2 → l.phase ≠ .finished ∧ (QueueLoop.step k l e).1.phase = .finished) ∧
    (Out.finished ∉ (QueueLoop.step k l e).2 → ((QueueLoop.step k l e).1.phase = .finished ↔ l.phase = .finished)) := by
  obtain ⟨act, ph⟩ := l
  cases e <;> simp only [QueueLoop.step] <;> repeat' split
  all_goals simp_all

/-! ### The invariant -/

/-- What the client knows of a call. -/
def callOf (c : Client) (n : Str) (i : Nat) : Option Call := (mget c n).bind (fun h => mget h.calls i)

def flagOf (c : Client) (n : Str) : Bool := ((mget c n).map (·.subscribed)).getD false

/-- The call has a loop that has not ended. -/
def Looping (c : Client) (n : Str) (i : Nat) : Prop := ∃ l, callOf c n i = some (.looping l) ∧ l.phase ≠ .finished

structure Told (c : Client) (tr : List Seen) : Prop where
  asking : ∀ n i, Asking n i tr ↔ callOf c n i = some .asking
  running : ∀ n i, Running n i tr ↔ Looping c n i

/-- If no calls overlap: the flag is set exactly while a loop runs, and at most one call asks or loops. -/
structure Alone (c : Client) : Prop where
  flag : ∀ n, flagOf c n = true ↔ ∃ i, Looping c n i
  one : ∀ n i j, callOf c n i = some .asking ∨ Looping c n i → callOf c n j = some .asking ∨ Looping c n j → i = j

theorem callOf_set (c : Client) (n : Str) (h : Handle) (i : Nat) (x : Call) (m : Str) (j : Nat)
    (hh : ∀ j, mget h.calls j = callOf c n j) (b : Bool) :
    callOf (mset c n { subscribed := b, calls := mset h.calls i x }) m j = if m = n ∧ j = i then some x else callOf c m j := by
  by_cases hm : m = n
  · subst hm
    simp only [callOf, mget_mset_same, Option.bind_some, mget_mset, true_and]
    by_cases hj : j = i
    · simp [hj]
    · simp only [hj, if_false]
      exact hh j
  · simp only [callOf, mget_mset_ne _ _ hm, hm, false_and, if_false]

theorem flagOf_set (c : Client) (n : Str) (h : Handle) (m : Str) : flagOf (mset c n h) m = if m = n then h.subscribed else flagOf c m := by
  by_cases hm : m = n
  · subst hm; simp [flagOf, mget_mset_same]
  · simp [flagOf, mget_mset_ne _ _ hm, hm]

theorem calls_getD (c : Client) (n : Str) (j : Nat) : mget ((mget c n).getD {}).calls j = callOf c n j := by
  unfold callOf
  cases mget c n <;> rfl

theorem calls_some {c : Client} {n : Str} {h : Handle} (hc : mget c n = some h) (j : Nat) : mget h.calls j = callOf c n j := by
  simp [callOf, hc]

/-- A step: nothing, or one call of one queue changes and one thing is seen (or none, by a loop). -/
inductive Step (c : Client) : Client → List Seen → Prop
  | skip : Step c c []
  | refused (n : Str) (i : Nat) (c' : Client) (hf : flagOf c n = true) (hn : callOf c n i = none)
      (hc : ∀ m j, callOf c' m j = if m = n ∧ j = i then some .rejected else callOf c m j) (hg : ∀ m, flagOf c' m = flagOf c m) : Step c c' [.refused n i]
  | asked (n : Str) (i : Nat) (c' : Client) (hf : flagOf c n = false) (hn : callOf c n i = none)
      (hc : ∀ m j, callOf c' m j = if m = n ∧ j = i then some .asking else callOf c m j) (hg : ∀ m, flagOf c' m = flagOf c m) : Step c c' [.asked n i]
  | absent (n : Str) (i : Nat) (c' : Client) (hn : callOf c n i = some .asking)
      (hc : ∀ m j, callOf c' m j = if m = n ∧ j = i then some .rejected else callOf c m j) (hg : ∀ m, flagOf c' m = flagOf c m) : Step c c' [.absent n i]
  | began (n : Str) (i : Nat) (c' : Client) (hn : callOf c n i = some .asking)
      (hc : ∀ m j, callOf c' m j = if m = n ∧ j = i then some (.looping {}) else callOf c m j)
      (hg : ∀ m, flagOf c' m = if m = n then true else flagOf c m) : Step c c' [.began n i]
  | goes (n : Str) (i : Nat) (l l' : Loop) (os : List Out) (c' : Client) (hn : callOf c n i = some (.looping l))
      (hc : ∀ m j, callOf c' m j = if m = n ∧ j = i then some (.looping l') else callOf c m j) (hg : ∀ m, flagOf c' m = flagOf c m)
      (ho : os = [] ∨ ∃ o, os = [o] ∧ o ≠ .finished) (hl : l'.phase = .finished ↔ l.phase = .finished) : Step c c' (os.map (.did n i))
  | ends (n : Str) (i : Nat) (l l' : Loop) (c' : Client) (hn : callOf c n i = some (.looping l)) (hl : l.phase ≠ .finished) (hl' : l'.phase = .finished)
      (hc : ∀ m j, callOf c' m j = if m = n ∧ j = i then some (.looping l') else callOf c m j)
      (hg : ∀ m, flagOf c' m = if m = n then false else flagOf c m) : Step c c' [.did n i .finished]

theorem step_step (k : Nat → Nat) (c : Client) (e : Ev) : Step c (step k c e).1 (step k c e).2 := by
  have fg : ∀ n : Str, ((mget c n).getD {}).subscribed = flagOf c n := by
    intro n; unfold flagOf; cases mget c n <;> rfl
  have sub : ∀ (n : Str) (h : Handle), h.subscribed = flagOf c n → ∀ m, (if m = n then h.subscribed else flagOf c m) = flagOf c m := by
    intro n h hh m
    by_cases hm : m = n
    · rw [if_pos hm, hh, hm]
    · rw [if_neg hm]
  cases e with
  | subscribe n i =>
    simp only [step]
    by_cases h1 : mhas ((mget c n).getD {}).calls i = true
    · rw [if_pos h1]; exact .skip
    · rw [if_neg h1]
      have hn : callOf c n i = none := by
        rw [← calls_getD]; unfold mhas at h1
        cases hx : mget ((mget c n).getD {}).calls i <;> simp_all
      by_cases h2 : ((mget c n).getD {}).subscribed = true
      · rw [if_pos h2]
        exact .refused n i _ (by rw [← fg, h2]) hn (fun m j => callOf_set c n _ i _ m j (calls_getD c n) _)
          (fun m => by rw [flagOf_set]; exact sub n _ (fg n) m)
      · rw [if_neg h2]
        exact .asked n i _ (by rw [← fg]; simpa using h2) hn (fun m j => callOf_set c n _ i _ m j (calls_getD c n) _)
          (fun m => by rw [flagOf_set]; exact sub n _ (fg n) m)
  | answered n i b =>
    simp only [step]
    cases hc : mget c n with
    | none => exact .skip
    | some h =>
      have hf : h.subscribed = flagOf c n := by simp [flagOf, hc]
      simp only
      cases hi : mget h.calls i with
      | none => exact .skip
      | some x =>
        cases x with
        | asking =>
          have hn : callOf c n i = some .asking := by rw [← calls_some hc]; exact hi
          cases b with
          | true =>
            exact .began n i _ hn (fun m j => callOf_set c n h i _ m j (calls_some hc) _) (fun m => by rw [if_pos rfl, flagOf_set])
          | false =>
            exact .absent n i _ hn (fun m j => callOf_set c n h i _ m j (calls_some hc) _)
              (fun m => by simp only [Bool.false_eq_true, if_false, flagOf_set]; exact sub n h hf m)
        | looping l => exact .skip
        | rejected => exact .skip
  | loop n i e =>
    simp only [step]
    cases hc : mget c n with
    | none => exact .skip
    | some h =>
      have hf : h.subscribed = flagOf c n := by simp [flagOf, hc]
      simp only
      cases hi : mget h.calls i with
      | none => exact .skip
      | some x =>
        cases x with
        | looping l =>
          have hn : callOf c n i = some (.looping l) := by rw [← calls_some hc]; exact hi
          simp only
          have ho := loop_outs (k i) l e
          obtain ⟨f1, f2⟩ := loop_finished (k i) l e
          generalize QueueLoop.step (k i) l e = r at ho f1 f2
          obtain ⟨l', os⟩ := r
          simp only at ho f1 f2 ⊢
          by_cases hfin : Out.finished ∈ os
          · obtain ⟨g1, g2⟩ := f1 hfin
            have : os = [.finished] := by
              rcases ho with rfl | ⟨o, rfl⟩
              · cases hfin
              · rw [List.mem_singleton.1 hfin]
            subst this
            exact .ends n i l l' _ hn g1 g2 (fun m j => callOf_set c n h i _ m j (calls_some hc) _)
              (fun m => by rw [flagOf_set]; simp)
          · refine .goes n i l l' os _ hn (fun m j => callOf_set c n h i _ m j (calls_some hc) _) (fun m => ?_) ?_ (f2 hfin)
            · rw [flagOf_set]
              have : (os.contains Out.finished) = false := by simpa using hfin
              simp only [this, Bool.not_false, Bool.and_true]
              exact sub n h hf m
            · rcases ho with h | ⟨o, h⟩
              · exact .inl h
              · exact .inr ⟨o, h, fun ho => hfin (by rw [h, ho]; simp)⟩
        | asking => exact .skip
        | rejected => exact .skip

/-- Only the call that changes has a new state. -/
theorem looping_set {c c' : Client} {n : Str} {i : Nat} {x : Call} (hc : ∀ m j, callOf c' m j = if m = n ∧ j = i then some x else callOf c m j)
    (m : Str) (j : Nat) : Looping c' m j ↔ (m = n ∧ j = i ∧ ∃ l, x = .looping l ∧ l.phase ≠ .finished) ∨ (¬ (m = n ∧ j = i) ∧ Looping c m j) := by
  unfold Looping
  rw [hc]
  by_cases h : m = n ∧ j = i
  · rw [if_pos h]; simp [h]
  · rw [if_neg h]; simp only [h, not_false_iff, true_and, ← and_assoc, false_and, false_or]

theorem Told.step {c c' : Client} {tr os : List Seen} (h : Told c tr) (hs : Step c c' os) : Told c' (tr ++ os) := by
  cases hs with
  | skip => rw [List.append_nil]; exact h
  | refused n i _ hf hn hc hg =>
    constructor <;> intro m j
    · unfold Asking
      rw [since_snoc, hc]
      simp only [reduceCtorEq, false_or, or_false, not_false_iff, and_true]
      rw [show Since _ _ tr ↔ _ from h.asking m j]
      by_cases hm : m = n ∧ j = i
      · rw [if_pos hm, hm.1, hm.2, hn]; simp
      · rw [if_neg hm]
    · unfold Running
      rw [since_snoc, looping_set hc]
      simp only [reduceCtorEq, false_or, not_false_iff, and_true, false_and, exists_false, and_false]
      rw [show Since _ _ tr ↔ _ from h.running m j]
      refine ⟨fun hl => ⟨?_, hl⟩, And.right⟩
      rintro ⟨rfl, rfl⟩
      obtain ⟨l, hl, _⟩ := hl
      rw [hn] at hl; cases hl
  | asked n i _ hf hn hc hg =>
    constructor <;> intro m j
    · unfold Asking
      rw [since_snoc, hc]
      simp only [reduceCtorEq, or_false, not_false_iff, and_true, Seen.asked.injEq]
      rw [show Since _ _ tr ↔ _ from h.asking m j]
      by_cases hm : m = n ∧ j = i
      · rw [if_pos hm]; simp [hm]
      · rw [if_neg hm]
        exact ⟨fun h => h.elim (fun h => absurd ⟨h.1.symm, h.2.symm⟩ hm) id, .inr⟩
    · unfold Running
      rw [since_snoc, looping_set hc]
      simp only [reduceCtorEq, false_or, not_false_iff, and_true, false_and, exists_false, and_false]
      rw [show Since _ _ tr ↔ _ from h.running m j]
      refine ⟨fun hl => ⟨?_, hl⟩, And.right⟩
      rintro ⟨rfl, rfl⟩
      obtain ⟨l, hl, _⟩ := hl
      rw [hn] at hl; cases hl
  | absent n i _ hn hc hg =>
    constructor <;> intro m j
    · unfold Asking
      rw [since_snoc, hc]
      simp only [reduceCtorEq, false_or, Seen.absent.injEq]
      rw [show Since _ _ tr ↔ _ from h.asking m j]
      by_cases hm : m = n ∧ j = i
      · rw [if_pos hm]; simp [hm]
      · rw [if_neg hm]
        exact ⟨And.left, fun h => ⟨h, fun he => hm ⟨he.1.symm, he.2.symm⟩⟩⟩
    · unfold Running
      rw [since_snoc, looping_set hc]
      simp only [reduceCtorEq, false_or, not_false_iff, and_true, false_and, exists_false, and_false]
      rw [show Since _ _ tr ↔ _ from h.running m j]
      refine ⟨fun hl => ⟨?_, hl⟩, And.right⟩
      rintro ⟨rfl, rfl⟩
      obtain ⟨l, hl, _⟩ := hl
      rw [hn] at hl; cases hl
  | began n i _ hn hc hg =>
    constructor <;> intro m j
    · unfold Asking
      rw [since_snoc, hc]
      simp only [reduceCtorEq, false_or, or_false, Seen.began.injEq]
      rw [show Since _ _ tr ↔ _ from h.asking m j]
      by_cases hm : m = n ∧ j = i
      · rw [if_pos hm]; simp [hm]
      · rw [if_neg hm]
        exact ⟨And.left, fun h => ⟨h, fun he => hm ⟨he.1.symm, he.2.symm⟩⟩⟩
    · unfold Running
      rw [since_snoc, looping_set hc]
      simp only [reduceCtorEq, not_false_iff, and_true, Seen.began.injEq]
      rw [show Since _ _ tr ↔ _ from h.running m j]
      by_cases hm : m = n ∧ j = i
      · obtain ⟨rfl, rfl⟩ := hm
        simp only [and_self, true_or, true_and, not_true_eq_false, false_and, or_false, true_iff]
        exact ⟨_, rfl, by simp⟩
      · constructor
        · rintro (⟨rfl, rfl⟩ | h)
          · exact absurd ⟨rfl, rfl⟩ hm
          · exact .inr ⟨hm, h⟩
        · rintro (⟨h1, h2, _⟩ | h)
          · exact absurd ⟨h1, h2⟩ hm
          · exact .inr h.2
  | goes n i l l' os _ hn hc hg ho hl =>
    have same : ∀ m j, Looping c' m j ↔ Looping c m j := by
      intro m j
      rw [looping_set hc]
      by_cases hm : m = n ∧ j = i
      · obtain ⟨rfl, rfl⟩ := hm
        simp only [and_self, true_and, not_true_eq_false, false_and, or_false]
        constructor
        · rintro ⟨l2, h2, h3⟩
          injection h2 with h2; subst h2
          exact ⟨l, hn, fun h => h3 (hl.2 h)⟩
        · rintro ⟨l2, h2, h3⟩
          rw [hn] at h2
          injection h2 with h2; injection h2 with h2; subst h2
          exact ⟨l', rfl, fun h => h3 (hl.1 h)⟩
      · refine ⟨fun h => h.elim (fun h => absurd ⟨h.1, h.2.1⟩ hm) And.right, fun h => .inr ⟨hm, h⟩⟩
    have same' : ∀ m j, callOf c' m j = some .asking ↔ callOf c m j = some .asking := by
      intro m j
      rw [hc]
      by_cases hm : m = n ∧ j = i
      · rw [if_pos hm, hm.1, hm.2, hn]; simp
      · rw [if_neg hm]
    rcases ho with rfl | ⟨o, rfl, ho⟩
    · rw [List.map_nil, List.append_nil]
      exact ⟨fun m j => (h.asking m j).trans (same' m j).symm, fun m j => (h.running m j).trans (same m j).symm⟩
    · constructor <;> intro m j
      · rw [same', ← h.asking m j]
        unfold Asking
        rw [List.map_singleton, since_snoc]
        simp
      · rw [same, ← h.running m j]
        unfold Running
        rw [List.map_singleton, since_snoc]
        simp only [reduceCtorEq, false_or, Seen.did.injEq, ho, and_false, not_false_iff, and_true]
  | ends n i l l' _ hn hl hl' hc hg =>
    constructor <;> intro m j
    · unfold Asking
      rw [since_snoc, hc]
      simp only [reduceCtorEq, false_or, or_false, not_false_iff, and_true]
      rw [show Since _ _ tr ↔ _ from h.asking m j]
      by_cases hm : m = n ∧ j = i
      · rw [if_pos hm, hm.1, hm.2, hn]; simp
      · rw [if_neg hm]
    · unfold Running
      rw [since_snoc, looping_set hc]
      simp only [reduceCtorEq, false_or, Seen.did.injEq, and_true]
      rw [show Since _ _ tr ↔ _ from h.running m j]
      constructor
      · rintro ⟨h1, h2⟩
        exact .inr ⟨fun h => h2 ⟨h.1.symm, h.2.symm⟩, h1⟩
      · rintro (⟨_, _, l2, h1, h2⟩ | ⟨h1, h2⟩)
        · injection h1 with h1; subst h1; exact absurd hl' h2
        · exact ⟨h2, fun h => h1 ⟨h.1.symm, h.2.symm⟩⟩

theorem Alone.step {c c' : Client} {os : List Seen} (h : Alone c) (hs : Step c c' os)
    (ho : ∀ n j, os = [.asked n j] → ∀ i, callOf c n i ≠ some .asking) : Alone c' := by
  have keep : ∀ {n : Str} {i : Nat} {x : Call}, (∀ m j, callOf c' m j = if m = n ∧ j = i then some x else callOf c m j) →
      (x = .asking ∨ (∃ l, x = .looping l ∧ l.phase ≠ .finished) → callOf c n i = some .asking ∨ Looping c n i) →
      ∀ m j, callOf c' m j = some .asking ∨ Looping c' m j → callOf c m j = some .asking ∨ Looping c m j := by
    intro n i x hc hx m j hj
    rw [looping_set hc, hc] at hj
    by_cases hm : m = n ∧ j = i
    · rw [if_pos hm] at hj
      rw [hm.1, hm.2]
      apply hx
      rcases hj with hj | hj
      · injection hj with hj; exact .inl hj
      · exact hj.elim (fun h => .inr h.2.2) (fun h => absurd hm h.1)
    · rw [if_neg hm] at hj
      exact hj.imp_right (fun hj => hj.elim (fun h => absurd ⟨h.1, h.2.1⟩ hm) And.right)
  cases hs with
  | skip => exact h
  | refused n i _ hf hn hc hg =>
    have kp := keep hc (by rintro (h | ⟨l, h, _⟩) <;> cases h)
    refine ⟨fun m => ?_, fun m a b ha hb => h.one m a b (kp m a ha) (kp m b hb)⟩
    rw [hg, h.flag]
    refine exists_congr (fun j => ?_)
    rw [looping_set hc]
    refine ⟨fun hl => .inr ⟨?_, hl⟩, fun hl => hl.elim (fun h => by obtain ⟨_, _, l, h, _⟩ := h; cases h) And.right⟩
    rintro ⟨rfl, rfl⟩
    obtain ⟨l, hl, _⟩ := hl
    rw [hn] at hl; cases hl
  | asked n i _ hf hn hc hg =>
    have noloop : ∀ j, ¬ Looping c n j := fun j hl => by
      have := (h.flag n).2 ⟨j, hl⟩
      rw [hf] at this; cases this
    have kl : ∀ m j, Looping c' m j ↔ Looping c m j := by
      intro m j
      rw [looping_set hc]
      refine ⟨fun hl => hl.elim (fun h => by obtain ⟨_, _, l, h, _⟩ := h; cases h) And.right, fun hl => .inr ⟨?_, hl⟩⟩
      rintro ⟨rfl, rfl⟩
      exact noloop _ hl
    refine ⟨fun m => by rw [hg, h.flag]; exact exists_congr (fun j => (kl m j).symm), ?_⟩
    intro m a b ha hb
    rw [kl] at ha hb
    have at_n : ∀ a, m = n → (callOf c' m a = some .asking ∨ Looping c m a) → a = i := by
      rintro a rfl (hx | hx)
      · rw [hc] at hx
        by_cases hai : a = i
        · exact hai
        · rw [if_neg (fun h => hai h.2)] at hx
          exact absurd hx (ho m i rfl a)
      · exact absurd hx (noloop a)
    by_cases hm : m = n
    · rw [at_n a hm ha, at_n b hm hb]
    · rw [hc, if_neg (fun h => hm h.1)] at ha hb
      exact h.one m a b ha hb
  | absent n i _ hn hc hg =>
    have kp := keep hc (by rintro (h | ⟨l, h, _⟩) <;> cases h)
    refine ⟨fun m => ?_, fun m a b ha hb => h.one m a b (kp m a ha) (kp m b hb)⟩
    rw [hg, h.flag]
    refine exists_congr (fun j => ?_)
    rw [looping_set hc]
    refine ⟨fun hl => .inr ⟨?_, hl⟩, fun hl => hl.elim (fun h => by obtain ⟨_, _, l, h, _⟩ := h; cases h) And.right⟩
    rintro ⟨rfl, rfl⟩
    obtain ⟨l, hl, _⟩ := hl
    rw [hn] at hl; cases hl
  | began n i _ hn hc hg =>
    have kp := keep hc (fun _ => .inl hn)
    refine ⟨fun m => ?_, fun m a b ha hb => h.one m a b (kp m a ha) (kp m b hb)⟩
    rw [hg]
    by_cases hm : m = n
    · rw [if_pos hm]
      simp only [true_iff]
      exact ⟨i, (looping_set hc m i).2 (.inl ⟨hm, rfl, _, rfl, by simp⟩)⟩
    · rw [if_neg hm, h.flag]
      refine exists_congr (fun j => ?_)
      rw [looping_set hc]
      exact ⟨fun hl => .inr ⟨fun h => hm h.1, hl⟩, fun hl => hl.elim (fun h => absurd h.1 hm) And.right⟩
  | goes n i l l' os _ hn hc hg hos hl =>
    have kp := keep hc (by
      rintro (h | ⟨l2, h, h2⟩)
      · cases h
      · injection h with h; subst h
        exact .inr ⟨l, hn, fun h => h2 (hl.2 h)⟩)
    refine ⟨fun m => ?_, fun m a b ha hb => h.one m a b (kp m a ha) (kp m b hb)⟩
    rw [hg, h.flag]
    refine exists_congr (fun j => ?_)
    rw [looping_set hc]
    by_cases hm : m = n ∧ j = i
    · obtain ⟨rfl, rfl⟩ := hm
      simp only [and_self, true_and, not_true_eq_false, false_and, or_false]
      constructor
      · rintro ⟨l2, h2, h3⟩
        rw [hn] at h2
        injection h2 with h2; injection h2 with h2; subst h2
        exact ⟨l', rfl, fun h => h3 (hl.1 h)⟩
      · rintro ⟨l2, h2, h3⟩
        injection h2 with h2; subst h2
        exact ⟨l, hn, fun h => h3 (hl.2 h)⟩
    · refine ⟨fun h => .inr ⟨hm, h⟩, fun h => h.elim (fun h => absurd ⟨h.1, h.2.1⟩ hm) And.right⟩
  | ends n i l l' _ hn hl hl' hc hg =>
    have kp := keep hc (by
      rintro (h | ⟨l2, h, h2⟩)
      · cases h
      · injection h with h; subst h; exact absurd hl' h2)
    refine ⟨fun m => ?_, fun m a b ha hb => h.one m a b (kp m a ha) (kp m b hb)⟩
    rw [hg]
    by_cases hm : m = n
    · subst hm
      rw [if_pos rfl]
      simp only [Bool.false_eq_true, false_iff, not_exists]
      intro j hj
      rw [looping_set hc] at hj
      rcases hj with ⟨_, _, l2, h1, h2⟩ | ⟨h1, h2⟩
      · injection h1 with h1; subst h1; exact h2 hl'
      · exact h1 ⟨rfl, h.one m j i (.inr h2) (.inr ⟨l, hn, hl⟩)⟩
    · rw [if_neg hm, h.flag]
      refine exists_congr (fun j => ?_)
      rw [looping_set hc]
      exact ⟨fun hl => .inr ⟨fun h => hm h.1, hl⟩, fun hl => hl.elim (fun h => absurd h.1 hm) And.right⟩

theorem run_snoc (k : Nat → Nat) (c : Client) (es : List Ev) (e : Ev) :
    run k c (es ++ [e]) = ((step k (run k c es).1 e).1, (run k c es).2 ++ (step k (run k c es).1 e).2) := by
  induction es generalizing c with
  | nil => simp [run]
  | cons a es ih => simp only [List.cons_append, run, ih, List.append_assoc]

theorem told_run (k : Nat → Nat) (es : List Ev) : Told (run k [] es).1 (run k [] es).2 := by
  induction es using Sdk.snoc_ind with
  | h0 =>
    refine ⟨fun n i => ⟨fun h => absurd h since_nil, fun h => by cases h⟩, fun n i => ⟨fun h => absurd h since_nil, ?_⟩⟩
    rintro ⟨l, hl, _⟩; cases hl
  | h1 es e ih => rw [run_snoc]; exact ih.step (step_step k _ e)

theorem OneByOne.left {a b : List Seen} (h : OneByOne (a ++ b)) : OneByOne a :=
  fun u n j v e => h u n j (v ++ b) (by rw [e]; simp)

theorem alone_run (k : Nat → Nat) (es : List Ev) (h : OneByOne (run k [] es).2) : Alone (run k [] es).1 := by
  induction es using Sdk.snoc_ind with
  | h0 =>
    refine ⟨fun n => ⟨fun h => (by cases h), ?_⟩, ?_⟩
    · rintro ⟨i, l, hl, _⟩; cases hl
    · rintro n i j (h | ⟨l, h, _⟩) <;> cases h
  | h1 es e ih =>
    rw [run_snoc] at h ⊢
    refine (ih h.left).step (step_step k _ e) (fun n j he i hi => ?_)
    exact h (run k [] es).2 n j [] (by rw [he]) i (((told_run k es).asking n i).2 hi)

/-- Everything seen was seen in some step. -/
theorem seen_step (k : Nat → Nat) (es : List Ev) {u v : List Seen} {s : Seen} (h : (run k [] es).2 = u ++ s :: v) :
    ∃ es₁ e es₂ x y, es = es₁ ++ e :: es₂ ∧ (step k (run k [] es₁).1 e).2 = x ++ s :: y ∧ u = (run k [] es₁).2 ++ x := by
  induction es using Sdk.snoc_ind generalizing v with
  | h0 => cases u <;> cases h
  | h1 es e ih =>
    rw [run_snoc] at h
    simp only at h
    rcases List.append_eq_append_iff.1 h with ⟨a, h1, h2⟩ | ⟨a, h1, h2⟩
    · exact ⟨es, e, [], a, v, rfl, h2, h1⟩
    · cases a with
      | nil =>
        simp only [List.append_nil, List.nil_append] at h1 h2
        exact ⟨es, e, [], [], v, rfl, by simpa using h2.symm, by simpa using h1.symm⟩
      | cons b a =>
        injection h2 with h2 h3
        subst h2
        obtain ⟨es1, e1, es2, x, y, g1, g2, g3⟩ := ih h1
        exact ⟨es1, e1, es2 ++ [e], x, y, by rw [g1]; simp, g2, g3⟩

/-! ## C127 -/

/-- **C127** (partial: no `subscribe` of a queue goes on while another one of that queue waits to learn whether it exists, see `C127_violated`).  At any
time each queue of a client has at most one loop that consumes. -/
theorem C127_one_partial (k : Nat → Nat) (es : List Ev) (ho : OneByOne (run k [] es).2) {n : Str} {i j : Nat} (hi : Running n i (run k [] es).2)
    (hj : Running n j (run k [] es).2) : i = j :=
  (alone_run k es ho).one n i j (.inr (((told_run k es).running n i).1 hi)) (.inr (((told_run k es).running n j).1 hj))

/-- **C127** (partial: likewise).  `subscribe` is refused with "already subscribed" only while a loop of that queue runs. -/
theorem C127_refused_partial (k : Nat → Nat) (es : List Ev) (ho : OneByOne (run k [] es).2) {u v : List Seen} {n : Str} {j : Nat}
    (h : (run k [] es).2 = u ++ .refused n j :: v) : ∃ i, Running n i u := by
  obtain ⟨es1, e, es2, x, y, h1, h2, h3⟩ := seen_step k es h
  have hal : Alone (run k [] es1).1 := by
    apply alone_run
    rw [h, h3, List.append_assoc] at ho
    exact ho.left
  have hs := step_step k (run k [] es1).1 e
  rw [h2] at hs
  generalize hc : (step k (run k [] es1).1 e).1 = c' at hs
  generalize hos : x ++ Seen.refused n j :: y = os at hs
  cases hs with
  | refused m i _ hf hn hc hg =>
    cases x with
    | nil =>
      injection hos with hos _
      injection hos with e1 e2
      subst e1
      rw [h3, List.append_nil]
      obtain ⟨i', hi'⟩ := (hal.flag n).1 hf
      exact ⟨i', ((told_run k es1).running n i').2 hi'⟩
    | cons a x => cases x <;> cases hos
  | goes m i l l' os _ hn hc hg hos' hl =>
    rcases hos' with rfl | ⟨o, rfl, _⟩
    · cases x <;> cases hos
    · rcases x with _ | ⟨a, _ | ⟨b, x⟩⟩ <;> cases hos
  | _ => rcases x with _ | ⟨a, _ | ⟨b, x⟩⟩ <;> cases hos

/-- **C127** (partial: likewise).  `subscribe` goes on only while no loop of that queue runs: as long as one runs it is refused. -/
theorem C127_accepted_partial (k : Nat → Nat) (es : List Ev) (ho : OneByOne (run k [] es).2) {u v : List Seen} {n : Str} {j : Nat}
    (h : (run k [] es).2 = u ++ .asked n j :: v) (i : Nat) : ¬ Running n i u := by
  obtain ⟨es1, e, es2, x, y, h1, h2, h3⟩ := seen_step k es h
  have hal : Alone (run k [] es1).1 := by
    apply alone_run
    rw [h, h3, List.append_assoc] at ho
    exact ho.left
  have hs := step_step k (run k [] es1).1 e
  rw [h2] at hs
  generalize hc : (step k (run k [] es1).1 e).1 = c' at hs
  generalize hos : x ++ Seen.asked n j :: y = os at hs
  cases hs with
  | asked m i' _ hf hn hc hg =>
    cases x with
    | nil =>
      injection hos with hos _
      injection hos with e1 e2
      subst e1
      rw [h3, List.append_nil]
      intro hr
      have := (hal.flag n).2 ⟨i, ((told_run k es1).running n i).1 hr⟩
      rw [hf] at this; cases this
    | cons a x => cases x <;> cases hos
  | goes m i l l' os _ hn hc hg hos' hl =>
    rcases hos' with rfl | ⟨o, rfl, _⟩
    · cases x <;> cases hos
    · rcases x with _ | ⟨a, _ | ⟨b, x⟩⟩ <;> cases hos
  | _ => rcases x with _ | ⟨a, _ | ⟨b, x⟩⟩ <;> cases hos

/-- **C127.** The queues of a client are independent: what is seen of one of them is what would be seen if there were no events of the others. -/
theorem C127_separate (k : Nat → Nat) (es : List Ev) (n : Str) :
    (run k [] es).2.filter (fun s => s.queue = n) = (run k [] (es.filter (fun e => e.queue = n))).2 := by
  suffices H : ∀ (es : List Ev) (c d : Client), mget c n = mget d n →
      (run k c es).2.filter (fun s => s.queue = n) = (run k d (es.filter (fun e => e.queue = n))).2 from H es [] [] rfl
  intro es
  induction es with
  | nil => intro c d h; rfl
  | cons e es ih =>
    intro c d h
    have hq : ∀ s ∈ (step k c e).2, s.queue = e.queue := by
      cases e with
      | subscribe m i =>
        simp only [step]
        split
        · intro s hs; cases hs
        · split <;> (intro s hs; rw [List.mem_singleton.1 hs]; rfl)
      | answered m i b =>
        simp only [step]
        split
        · intro s hs; cases hs
        · split
          · split <;> (intro s hs; rw [List.mem_singleton.1 hs]; rfl)
          · intro s hs; cases hs
      | loop m i e =>
        simp only [step]
        split
        · intro s hs; cases hs
        · split
          · intro s hs
            obtain ⟨o, _, rfl⟩ := List.mem_map.1 hs
            rfl
          · intro s hs; cases hs
    have hoth : ∀ m, m ≠ e.queue → mget (step k c e).1 m = mget c m := by
      intro m hm
      cases e with
      | subscribe m' i =>
        simp only [Ev.queue] at hm
        simp only [step]
        split
        · rfl
        · split <;> exact mget_mset_ne _ _ hm
      | answered m' i b =>
        simp only [Ev.queue] at hm
        simp only [step]
        split
        · rfl
        · split
          · split <;> exact mget_mset_ne _ _ hm
          · rfl
      | loop m' i e =>
        simp only [Ev.queue] at hm
        simp only [step]
        split
        · rfl
        · split
          · exact mget_mset_ne _ _ hm
          · rfl
    by_cases he : e.queue = n
    · have hsame : (step k c e).2 = (step k d e).2 ∧ mget (step k c e).1 n = mget (step k d e).1 n := by
        cases e with
        | subscribe m i =>
          simp only [Ev.queue] at he
          subst he
          simp only [step, h]
          split
          · exact ⟨rfl, h⟩
          · split <;> simp [mget_mset_same]
        | answered m i b =>
          simp only [Ev.queue] at he
          subst he
          simp only [step, h]
          split
          · next hd => exact ⟨rfl, by rw [h]⟩
          · split
            · split <;> simp [mget_mset_same]
            · next hd _ _ => exact ⟨rfl, by rw [h]⟩
        | loop m i e =>
          simp only [Ev.queue] at he
          subst he
          simp only [step, h]
          split
          · exact ⟨rfl, by rw [h]⟩
          · split
            · simp [mget_mset_same]
            · exact ⟨rfl, by rw [h]⟩
      have hf : (step k c e).2.filter (fun s => s.queue = n) = (step k c e).2 :=
        List.filter_eq_self.2 (fun s hs => by simp [hq s hs, he])
      rw [List.filter_cons_of_pos (by simp [he])]
      simp only [run, List.filter_append, hf]
      rw [ih _ _ hsame.2, hsame.1]
    · have hf : (step k c e).2.filter (fun s => s.queue = n) = [] :=
        List.filter_eq_nil_iff.2 (fun s hs => by simp [hq s hs, he])
      rw [List.filter_cons_of_neg (by simp [he])]
      simp only [run, List.filter_append, hf, List.nil_append]
      exact ih _ _ (by rw [hoth n (fun hn => he hn.symm)]; exact h)

/-! ### Examples -/

/-- A consumer, a second `subscribe` that is refused, `stop`, and another consumer; on another queue one that does not exist. -/
def exTurns : List Ev :=
  [.subscribe [97] 0, .answered [97] 0 true, .loop [97] 0 (.poll true), .subscribe [97] 1, .subscribe [98] 0, .answered [98] 0 false, .loop [97] 0 .stop,
   .loop [97] 0 (.delivered []), .loop [97] 0 (.poll true), .subscribe [97] 2, .answered [97] 2 true]

theorem exTurnsSeen : (run (fun _ => 1) [] exTurns).2 =
    [.asked [97] 0, .began [97] 0, .did [97] 0 .consume, .refused [97] 1, .asked [98] 0, .absent [98] 0, .did [97] 0 .finished, .asked [97] 2, .began [97] 2] := by
  decide

/-- The hypotheses of the theorems above are met. -/
theorem exTurnsOne : OneByOne (run (fun _ => 1) [] exTurns).2 := by
  rw [exTurnsSeen]
  intro u n j v h i hi
  have hb : ∀ w : List Seen, (∀ y ∈ w, y ≠ .asked n i) → ¬ Asking n i w := by
    rintro w hw ⟨a, x, b, rfl, rfl, _⟩
    exact hw _ (by simp) rfl
  rcases u with _ | ⟨a0, _ | ⟨a1, _ | ⟨a2, _ | ⟨a3, _ | ⟨a4, _ | ⟨a5, _ | ⟨a6, _ | ⟨a7, _ | ⟨a8, _ | ⟨a9, u⟩⟩⟩⟩⟩⟩⟩⟩⟩⟩ <;>
    simp only [List.nil_append, List.cons_append, List.cons.injEq, reduceCtorEq, false_and, and_false] at h
  · exact since_nil hi
  · obtain ⟨rfl, rfl, rfl, rfl, h5, _⟩ := h
    injection h5 with h5 h6
    subst h5
    exact hb _ (by simp) hi
  · obtain ⟨rfl, rfl, rfl, rfl, rfl, rfl, rfl, h5, _⟩ := h
    injection h5 with h5 h6
    subst h5
    unfold Asking at hi
    rw [show ([Seen.asked [97] 0, .began [97] 0, .did [97] 0 .consume, .refused [97] 1, .asked [98] 0, .absent [98] 0, .did [97] 0 .finished] : List Seen) =
      ((((((([] ++ [.asked [97] 0]) ++ [.began [97] 0]) ++ [.did [97] 0 .consume]) ++ [.refused [97] 1]) ++ [.asked [98] 0]) ++ [.absent [98] 0]) ++
        [.did [97] 0 .finished]) from rfl] at hi
    simp only [since_snoc, since_nil, reduceCtorEq, Seen.asked.injEq, Seen.began.injEq, Seen.absent.injEq] at hi
    simp at hi

/-- `C127_refused_partial` and `C127_accepted_partial` at work. -/
example : (∃ i, Running [97] i [.asked [97] 0, .began [97] 0, .did [97] 0 .consume]) ∧
    ¬ Running [97] 0 [.asked [97] 0, .began [97] 0, .did [97] 0 .consume, .refused [97] 1, .asked [98] 0, .absent [98] 0, .did [97] 0 .finished] :=
  ⟨C127_refused_partial (fun _ => 1) exTurns exTurnsOne (u := [.asked [97] 0, .began [97] 0, .did [97] 0 .consume]) (j := 1) (by rw [exTurnsSeen]; rfl),
   C127_accepted_partial (fun _ => 1) exTurns exTurnsOne (j := 2) (by rw [exTurnsSeen]; rfl) 0⟩

/-- **C127 is violated** by two calls that overlap: the guard is read before the wait for `exists` and set after it, so both pass and the queue has two
loops.  When the first one ends it clears the guard, although the second one runs, and a third one is accepted. -/
theorem C127_violated :
    (∃ es, Running [97] 0 (run (fun _ => 1) [] es).2 ∧ Running [97] 1 (run (fun _ => 1) [] es).2) ∧
    ∃ es u, (run (fun _ => 1) [] es).2 = u ++ [.asked [97] 2] ∧ Running [97] 1 u := by
  refine ⟨⟨[.subscribe [97] 0, .subscribe [97] 1, .answered [97] 0 true, .answered [97] 1 true], ?_, ?_⟩,
    ⟨[.subscribe [97] 0, .subscribe [97] 1, .answered [97] 0 true, .answered [97] 1 true, .loop [97] 0 .stop, .loop [97] 0 (.poll true), .subscribe [97] 2],
     [.asked [97] 0, .asked [97] 1, .began [97] 0, .began [97] 1, .did [97] 0 .finished], by decide, ?_⟩⟩
  · exact ⟨[.asked [97] 0, .asked [97] 1], .began [97] 0, [.began [97] 1], by decide, rfl, by simp⟩
  · exact ⟨[.asked [97] 0, .asked [97] 1, .began [97] 0], .began [97] 1, [], by decide, rfl, by simp⟩
  · exact ⟨[.asked [97] 0, .asked [97] 1, .began [97] 0], .began [97] 1, [.did [97] 0 .finished], rfl, rfl, by simp⟩

end Verif.Sdk.Handles
