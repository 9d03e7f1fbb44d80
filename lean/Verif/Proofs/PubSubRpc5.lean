import Verif.Proofs.PubSubRpc4
import Verif.Proofs.PubSubScan
import Verif.Proofs.PubSubE2E2

/-!
# Lemmas about publish/subscribe behind the network: what the broker sends, act by act
-/

namespace Verif.Rpc

open Verif Verif.Wire Verif.Sdk

variable {E I : Type}

/-! ### Connections and subscriptions, read off the acts -/

theorem split_snoc {α : Type} {A u v : List α} {a b : α} (h : A ++ [b] = u ++ a :: v) : (u = A ∧ a = b ∧ v = []) ∨ ∃ v', v = v' ++ [b] ∧ A = u ++ a :: v' := by
  rcases v.eq_nil_or_concat with rfl | ⟨v', x, rfl⟩
  · obtain ⟨h1, h2⟩ := List.append_inj' h rfl
    injection h2 with h2
    exact .inl ⟨h1.symm, h2.symm, rfl⟩
  · rw [List.concat_eq_append] at h ⊢
    rw [← List.cons_append, ← List.append_assoc] at h
    obtain ⟨h1, h2⟩ := List.append_inj' h rfl
    injection h2 with h2
    exact .inr ⟨v', by rw [h2], h1⟩

theorem Orderly.left {bg : I → Option PubSub.Op} {a b : List (Act I)} (h : Orderly bg (a ++ b)) : Orderly bg a := by
  intro u x v l hs hx
  exact h u x (v ++ b) l (by rw [hs]; simp) hx

section
variable {env : HubEnv} {bg : I → Option PubSub.Op}

/-- The operation of an act after the acts `u`. -/
theorem connected_op (l : Nat) (h : List PubSub.Op) (op : PubSub.Op) :
    PubSub.connected l (h ++ [op]) = PubSub.connectedRev l (op :: h.reverse) := by
  unfold PubSub.connected; rw [List.reverse_append]; rfl

theorem subscribed_op (l : Nat) (p : Str) (h : List PubSub.Op) (op : PubSub.Op) :
    PubSub.subscribed l p (h ++ [op]) = PubSub.subscribedRev l p (op :: h.reverse) := by
  unfold PubSub.subscribed; rw [List.reverse_append]; rfl

def Up (bg : I → Option PubSub.Op) (l : Nat) (u : List (Act I)) : Prop :=
  (∃ x, Act.ticked x ∈ u ∧ bg x = some (.connect l)) ∧ ∀ a ∈ u, ¬ endsLink bg l a

theorem up_same {l : Nat} {u : List (Act I)} {a : Act I} (h1 : ∀ x, a = .ticked x → bg x ≠ some (.connect l)) (h2 : ¬ endsLink bg l a) :
    Up bg l (u ++ [a]) ↔ Up bg l u := by
  unfold Up
  constructor
  · rintro ⟨⟨x, hx, hb⟩, hn⟩
    refine ⟨⟨x, ?_, hb⟩, fun b hb => hn b (List.mem_append.mpr (.inl hb))⟩
    rcases List.mem_append.mp hx with hx | hx
    · exact hx
    · exact absurd hb (h1 x (List.mem_singleton.mp hx).symm)
  · rintro ⟨⟨x, hx, hb⟩, hn⟩
    refine ⟨⟨x, List.mem_append.mpr (.inl hx), hb⟩, fun b hb => ?_⟩
    rcases List.mem_append.mp hb with hb | hb
    · exact hn b hb
    · rw [List.mem_singleton.mp hb]; exact h2

theorem did_up {l l' : Nat} {cmd : Cmd} {now : Nat} {r : Option Response} {u : List (Act I)} :
    Up bg l (u ++ [.did l' cmd now r]) ↔ Up bg l u :=
  up_same (fun _ h => nomatch h) (by rintro ⟨x, h, _⟩; cases h)

theorem up_iff {l : Nat} {u : List (Act I)} (hn : (PubSub.connects (hubOps env bg 0 u)).Nodup) (ho : Orderly bg u) :
    PubSub.connected l (hubOps env bg 0 u) = true ↔ Up bg l u := by
  induction u using Sdk.snoc_ind with
  | h0 =>
    constructor
    · intro h; cases h
    · rintro ⟨⟨x, hx, _⟩, _⟩; cases hx
  | h1 u a ih =>
    rw [hubOps_snoc] at hn ⊢
    rw [PubSub.connects_append] at hn
    have ih := ih (List.nodup_append.mp hn).1 ho.left
    have hsame : (∀ c, hubOp env bg (hubOps env bg 0 u).length a ≠ some (.connect c)) → (∀ c, hubOp env bg (hubOps env bg 0 u).length a ≠ some (.drop c)) →
        (∀ c, hubOp env bg (hubOps env bg 0 u).length a ≠ some (.disconnect c)) → (Up bg l (u ++ [a]) ↔ Up bg l u) := by
      intro h1 h2 h3
      cases a with
      | did => exact did_up
      | ticked x =>
        refine up_same ?_ ?_
        · intro y hy; injection hy with hy; subst hy; exact h1 l
        · rintro ⟨y, hy, hb⟩
          injection hy with hy
          subst hy
          rcases hb with hb | hb
          · exact h2 l hb
          · exact h3 l hb
    have htick : ∀ op, ofHub op = true → hubOp env bg (hubOps env bg 0 u).length a = some op → (∃ c, op = .connect c ∨ op = .drop c ∨ op = .disconnect c) →
        ∃ x, a = .ticked x ∧ bg x = some op := by
      intro op _ hop hc
      cases a with
      | did l' cmd now r =>
        exfalso
        obtain ⟨c, rfl | rfl | rfl⟩ := hc <;> cases cmd <;> simp [hubOp, hubCall] at hop
      | ticked x => exact ⟨x, rfl, hop⟩
    cases hop : hubOp env bg (hubOps env bg 0 u).length a with
    | none =>
      rw [Option.toList_none, List.append_nil, ih]
      exact (hsame (by simp [hop]) (by simp [hop]) (by simp [hop])).symm
    | some op =>
      rw [Option.toList_some, connected_op]
      rw [hop] at hn
      cases op with
      | connect c =>
        obtain ⟨x, rfl, hx⟩ := htick _ rfl hop ⟨c, .inl rfl⟩
        simp only [PubSub.connectedRev, Bool.or_eq_true, decide_eq_true_eq]
        by_cases hc : c = l
        · subst hc
          refine ⟨fun _ => ⟨⟨x, by simp, hx⟩, ?_⟩, fun _ => .inl rfl⟩
          intro b hb he
          rcases List.mem_append.mp hb with hb | hb
          · obtain ⟨v, z, hv⟩ := List.append_of_mem hb
            obtain ⟨y, hy, hb'⟩ := ho v b (z ++ [.ticked x]) c (by rw [hv]; simp) (.inr he)
            have h1 : c ∈ PubSub.connects (hubOps env bg 0 u) := connect_hubOps 0 (by rw [hv]; exact List.mem_append.mpr (.inl hy)) hb'
            have := (List.nodup_append.mp hn).2.2 c h1 c (by simp [PubSub.connects])
            exact this rfl
          · obtain ⟨y, hy, hb'⟩ := he
            rw [List.mem_singleton.mp hb] at hy
            injection hy with hy
            subst hy
            rw [hx] at hb'
            rcases hb' with hb' | hb' <;> cases hb'
        · have e1 : (c = l ∨ PubSub.connectedRev l (hubOps env bg 0 u).reverse = true) ↔ PubSub.connected l (hubOps env bg 0 u) = true :=
            ⟨fun h => h.resolve_left hc, .inr⟩
          rw [e1, ih]
          refine (up_same ?_ ?_).symm
          · intro y hy; injection hy with hy; subst hy; rw [hx]; intro h; injection h with h; injection h with h; exact hc h
          · rintro ⟨y, hy, hb⟩
            injection hy with hy
            subst hy
            rw [hx] at hb
            rcases hb with hb | hb <;> cases hb
      | drop c =>
        obtain ⟨x, rfl, hx⟩ := htick _ rfl hop ⟨c, .inr (.inl rfl)⟩
        simp only [PubSub.connectedRev, Bool.and_eq_true, decide_eq_true_eq]
        by_cases hc : c = l
        · subst hc
          exact ⟨fun h => absurd rfl h.1, fun h => absurd ⟨x, rfl, .inl hx⟩ (h.2 (.ticked x) (by simp))⟩
        · have e1 : (c ≠ l ∧ PubSub.connectedRev l (hubOps env bg 0 u).reverse = true) ↔ PubSub.connected l (hubOps env bg 0 u) = true :=
            ⟨fun h => h.2, fun h => ⟨hc, h⟩⟩
          rw [e1, ih]
          refine (up_same ?_ ?_).symm
          · intro y hy; injection hy with hy; subst hy; rw [hx]; intro h; cases h
          · rintro ⟨y, hy, hb⟩
            injection hy with hy
            subst hy
            rw [hx] at hb
            rcases hb with hb | hb
            · injection hb with hb; injection hb with hb; exact hc hb
            · cases hb
      | disconnect c =>
        obtain ⟨x, rfl, hx⟩ := htick _ rfl hop ⟨c, .inr (.inr rfl)⟩
        simp only [PubSub.connectedRev, Bool.and_eq_true, decide_eq_true_eq]
        by_cases hc : c = l
        · subst hc
          exact ⟨fun h => absurd rfl h.1, fun h => absurd ⟨x, rfl, .inr hx⟩ (h.2 (.ticked x) (by simp))⟩
        · have e1 : (c ≠ l ∧ PubSub.connectedRev l (hubOps env bg 0 u).reverse = true) ↔ PubSub.connected l (hubOps env bg 0 u) = true :=
            ⟨fun h => h.2, fun h => ⟨hc, h⟩⟩
          rw [e1, ih]
          refine (up_same ?_ ?_).symm
          · intro y hy; injection hy with hy; subst hy; rw [hx]; intro h; cases h
          · rintro ⟨y, hy, hb⟩
            injection hy with hy
            subst hy
            rw [hx] at hb
            rcases hb with hb | hb
            · cases hb
            · injection hb with hb; injection hb with hb; exact hc hb
      | subscribe | unsubscribe | publish | cleanup | flush =>
        simp only [PubSub.connectedRev]
        exact ih.trans (hsame (by simp [hop]) (by simp [hop]) (by simp [hop])).symm

theorem tuned_same {l : Nat} {p : Str} {u : List (Act I)} {a : Act I} (h1 : ¬ endsLink bg l a) (h2 : ∀ now r, a ≠ .did l (.unsubscribe p) now r)
    (h3 : ∀ now r, a ≠ .did l (.subscribe p) now r) : Tuned bg l p (u ++ [a]) ↔ Tuned bg l p u := by
  constructor
  · rintro ⟨x, now, r, y, hs, hu, he⟩
    rcases split_snoc hs with ⟨_, rfl, _⟩ | ⟨v', rfl, rfl⟩
    · exact absurd rfl (h3 now r)
    · exact ⟨x, now, r, v', rfl, fun now r hm => hu now r (List.mem_append.mpr (.inl hm)), fun b hb => he b (List.mem_append.mpr (.inl hb))⟩
  · rintro ⟨x, now, r, y, rfl, hu, he⟩
    refine ⟨x, now, r, y ++ [a], by simp, ?_, ?_⟩
    · intro now r hm
      rcases List.mem_append.mp hm with hm | hm
      · exact hu now r hm
      · exact h2 now r (List.mem_singleton.mp hm).symm
    · intro b hb
      rcases List.mem_append.mp hb with hb | hb
      · exact he b hb
      · rw [List.mem_singleton.mp hb]; exact h1

theorem tuned_iff {l : Nat} {p : Str} {u : List (Act I)} (hn : (PubSub.connects (hubOps env bg 0 u)).Nodup) (ho : Orderly bg u)
    (htasks : ∀ x op, bg x = some op → ofHub op = true) :
    PubSub.subscribed l p (hubOps env bg 0 u) = true ↔ Tuned bg l p u := by
  induction u using Sdk.snoc_ind with
  | h0 =>
    constructor
    · intro h; cases h
    · rintro ⟨x, now, r, y, h, _⟩; cases x <;> cases h
  | h1 u a ih =>
    have hup : PubSub.connected l (hubOps env bg 0 u) = true ↔ Up bg l u := by
      rw [hubOps_snoc, PubSub.connects_append] at hn
      exact up_iff (List.nodup_append.mp hn).1 ho.left
    rw [hubOps_snoc] at hn ⊢
    rw [PubSub.connects_append] at hn
    have ih := ih (List.nodup_append.mp hn).1 ho.left
    cases a with
    | did l' cmd now r =>
      have hne : ¬ endsLink bg l (.did l' cmd now r) := by rintro ⟨x, h, _⟩; cases h
      cases cmd with
      | subscribe q =>
        simp only [hubOp, hubCall, Option.toList_some]
        rw [subscribed_op]
        simp only [PubSub.subscribedRev, Bool.or_eq_true, Bool.and_eq_true, decide_eq_true_eq]
        by_cases hlq : l' = l ∧ q = p
        · obtain ⟨rfl, rfl⟩ := hlq
          have hends : PubSub.connectedRev l' (hubOps env bg 0 u).reverse = true ↔ Up bg l' u := hup
          constructor
          · intro h
            have hc : Up bg l' u := by
              rcases h with h | h
              · exact hends.mp h.2
              · exact hends.mp (PubSub.subscribed_connected h)
            refine ⟨u, now, r, [], rfl, (by intro _ _ hm; cases hm), ?_⟩
            intro b hb
            rcases List.mem_append.mp hb with hb | hb
            · exact hc.2 b hb
            · rw [List.mem_singleton.mp hb]; exact hne
          · rintro ⟨x, now', r', y, hs, hu, he⟩
            refine .inl ⟨⟨rfl, rfl⟩, hends.mpr ⟨?_, fun b hb => he b (List.mem_append.mpr (.inl hb))⟩⟩
            exact ho u _ [] l' rfl (.inl ⟨_, _, _, rfl⟩)
        · have e1 : (((l' = l ∧ q = p) ∧ PubSub.connectedRev l (hubOps env bg 0 u).reverse = true) ∨
              PubSub.subscribedRev l p (hubOps env bg 0 u).reverse = true) ↔ PubSub.subscribed l p (hubOps env bg 0 u) = true :=
            ⟨fun h => h.resolve_left (fun h => hlq h.1), .inr⟩
          rw [e1, ih]
          refine (tuned_same hne (by intro _ _ h; cases h) ?_).symm
          intro now' r' h
          injection h with h1 h2
          injection h2 with h2
          exact hlq ⟨h1, h2⟩
      | unsubscribe q =>
        simp only [hubOp, hubCall, Option.toList_some]
        rw [subscribed_op]
        simp only [PubSub.subscribedRev, Bool.and_eq_true, Bool.not_eq_true', Bool.and_eq_false_iff, decide_eq_false_iff_not]
        by_cases hlq : l' = l ∧ q = p
        · obtain ⟨rfl, rfl⟩ := hlq
          constructor
          · rintro ⟨h | h, _⟩ <;> exact absurd rfl h
          · rintro ⟨x, now', r', y, hs, hu, he⟩
            rcases split_snoc hs with ⟨_, h, _⟩ | ⟨v', rfl, _⟩
            · cases h
            · exact absurd (by simp) (hu now r)
        · have e1 : ((¬ l' = l ∨ ¬ q = p) ∧ PubSub.subscribedRev l p (hubOps env bg 0 u).reverse = true) ↔
              PubSub.subscribed l p (hubOps env bg 0 u) = true :=
            ⟨fun h => h.2, fun h => ⟨Decidable.not_and_iff_or_not.mp hlq, h⟩⟩
          rw [e1, ih]
          refine (tuned_same hne ?_ (by intro _ _ h; cases h)).symm
          intro now' r' h
          injection h with h1 h2
          injection h2 with h2
          exact hlq ⟨h1, h2⟩
      | publish topic opts payload =>
        simp only [hubOp, hubCall, Option.toList_some]
        rw [subscribed_op]
        simp only [PubSub.subscribedRev]
        exact ih.trans (tuned_same hne (by intro _ _ h; cases h) (by intro _ _ h; cases h)).symm
      | _ =>
        simp only [hubOp, hubCall, Option.toList_none, List.append_nil]
        exact ih.trans (tuned_same hne (by intro _ _ h; cases h) (by intro _ _ h; cases h)).symm
    | ticked x =>
      have hsame : ¬ endsLink bg l (.ticked x) → (Tuned bg l p (u ++ [.ticked x]) ↔ Tuned bg l p u) :=
        fun h => tuned_same h (by intro _ _ h; cases h) (by intro _ _ h; cases h)
      have hgone : endsLink bg l (.ticked x) → ¬ Tuned bg l p (u ++ [.ticked x]) := by
        rintro h ⟨_, _, _, _, _, _, he⟩
        exact he _ (by simp) h
      simp only [hubOp]
      cases hop : bg x with
      | none =>
        rw [Option.toList_none, List.append_nil, ih]
        refine (hsame ?_).symm
        rintro ⟨y, hy, hb⟩
        injection hy with hy
        subst hy
        rw [hop] at hb
        rcases hb with hb | hb <;> cases hb
      | some op =>
        have hnot : op ≠ .drop l → op ≠ .disconnect l → ¬ endsLink bg l (.ticked x) := by
          rintro h1 h2 ⟨y, hy, hb⟩
          injection hy with hy
          subst hy
          rw [hop] at hb
          rcases hb with hb | hb <;> injection hb with hb
          · exact h1 hb
          · exact h2 hb
        rw [Option.toList_some, subscribed_op]
        have ht := htasks x op hop
        cases op with
        | connect c | cleanup | flush =>
          simp only [PubSub.subscribedRev]
          exact ih.trans (hsame (hnot (fun h => nomatch h) (fun h => nomatch h))).symm
        | drop c =>
          simp only [PubSub.subscribedRev, Bool.and_eq_true, decide_eq_true_eq]
          by_cases hc : c = l
          · subst hc
            exact ⟨fun h => absurd rfl h.1, fun h => absurd h (hgone ⟨x, rfl, .inl hop⟩)⟩
          · have e1 : (c ≠ l ∧ PubSub.subscribedRev l p (hubOps env bg 0 u).reverse = true) ↔ PubSub.subscribed l p (hubOps env bg 0 u) = true :=
              ⟨fun h => h.2, fun h => ⟨hc, h⟩⟩
            rw [e1, ih]
            exact (hsame (hnot (fun h => by injection h with h; exact hc h) (fun h => nomatch h))).symm
        | disconnect c =>
          simp only [PubSub.subscribedRev, Bool.and_eq_true, decide_eq_true_eq]
          by_cases hc : c = l
          · subst hc
            exact ⟨fun h => absurd rfl h.1, fun h => absurd h (hgone ⟨x, rfl, .inr hop⟩)⟩
          · have e1 : (c ≠ l ∧ PubSub.subscribedRev l p (hubOps env bg 0 u).reverse = true) ↔ PubSub.subscribed l p (hubOps env bg 0 u) = true :=
              ⟨fun h => h.2, fun h => ⟨hc, h⟩⟩
            rw [e1, ih]
            exact (hsame (hnot (fun h => nomatch h) (fun h => by injection h with h; exact hc h))).symm
        | _ => cases ht

end

end Verif.Rpc
