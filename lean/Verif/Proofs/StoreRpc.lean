import Verif.Proofs.Rpc7
import Verif.Proofs.Store
import Verif.Spec.StoreRpc

/-!
# Lemmas about the store behind the network
-/

namespace Verif.Rpc

open Verif Verif.Wire Verif.Sdk

variable {E I : Type}

theorem storeOps_append (sw : I → Option (Str × Nat)) (past a b : List (Obs I)) :
    storeOps sw past (a ++ b) = storeOps sw past a ++ storeOps sw (past ++ a) b := by
  induction a generalizing past with
  | nil => simp [storeOps]
  | cons o a ih => simp [storeOps, ih]

theorem store_run_append (dflt : Nat) (m : Store.Map) (a b : List Store.Op) :
    (Store.run dflt m (a ++ b)).1 = (Store.run dflt (Store.run dflt m a).1 b).1 := by
  induction a generalizing m with
  | nil => rfl
  | cons o a ih => simp only [List.cons_append, Store.run]; exact ih _

/-- The store after a trace is the store after its history. -/
theorem store_state {srv : Server E I} {dflt : Nat} {st : E → Store.Map} {sw : I → Option (Str × Nat)} (hp : StorePart srv dflt st sw)
    {e0 : E} (h0 : st e0 = []) (tr : List (Obs I)) : st (state srv e0 tr) = (Store.run dflt [] (storeHistory sw tr)).1 := by
  induction tr using Sdk.snoc_ind with
  | h0 => exact h0
  | h1 tr o ih =>
    rw [state_snoc, storeHistory, storeOps_append, store_run_append]
    have h1 : (Store.run dflt [] (storeOps sw [] tr)).1 = st (state srv e0 tr) := ih.symm
    rw [h1]
    simp only [List.nil_append, storeOps, List.append_nil]
    generalize state srv e0 tr = e
    cases o with
    | executed l f now r =>
      simp only [effect, storeOp]
      cases hc : cmdAt l f.id tr with
      | none => rfl
      | some cmd =>
        by_cases hs : isStore cmd = true
        · have h2 := hp.exec l now cmd e hs
          cases cmd with
          | mapSet key opts v =>
            simp only [storeExec] at h2
            simp only [Option.toList, Store.run, Store.step]
            cases hx : Store.set dflt (st e) key v opts.ttl now with
            | none => rw [hx] at h2; exact (Prod.mk.inj h2).1
            | some m => rw [hx] at h2; exact (Prod.mk.inj h2).1
          | mapGet key =>
            simp only [storeExec] at h2
            simp only [Option.toList, Store.run, Store.step]
            cases hx : Store.get (st e) key now with
            | none => rw [hx] at h2; exact (Prod.mk.inj h2).1
            | some m => rw [hx] at h2; exact (Prod.mk.inj h2).1
          | mapDel key => exact (Prod.mk.inj h2).1
          | _ => cases hs
        · have hs' : isStore cmd = false := by simpa using hs
          have h2 := hp.other l now cmd e hs'
          cases cmd with
          | mapSet => cases hs'
          | mapGet => cases hs'
          | mapDel => cases hs'
          | _ => exact h2
    | ticked x =>
      simp only [effect, storeOp, hp.tick]
      cases sw x with
      | none => rfl
      | some k => rfl
    | called => rfl
    | fired => rfl
    | pushed => rfl
    | settled => rfl

/-- Events that neither set nor delete the key leave its last write. -/
theorem lastWriteRev_skip {dflt : Nat} {key : Str} {a b : List Store.Op}
    (h : ∀ o ∈ a, (∀ v t n, o ≠ .set key v t n) ∧ o ≠ .del key) :
    Store.lastWriteRev dflt key (a ++ b) = Store.lastWriteRev dflt key b := by
  induction a with
  | nil => rfl
  | cons o a ih =>
    have h1 := h o (List.mem_cons_self ..)
    have h2 := ih (fun o ho => h o (List.mem_cons_of_mem _ ho))
    cases o with
    | set k v t n =>
      simp only [List.cons_append, Store.lastWriteRev]
      rw [if_neg (by rintro ⟨rfl, _⟩; exact h1.1 v t n rfl)]; exact h2
    | del k =>
      simp only [List.cons_append, Store.lastWriteRev]
      rw [if_neg (by rintro rfl; exact h1.2 rfl)]; exact h2
    | get => exact h2
    | sweep => exact h2

theorem lastWrite_set {dflt : Nat} {key : Str} {v : Bytes} {t : Option Nat} {n : Nat} {a b : List Store.Op}
    (hr : Store.representable (Store.expiry dflt t n) = true)
    (h : ∀ o ∈ b, (∀ v t n, o ≠ .set key v t n) ∧ o ≠ .del key) :
    Store.lastWrite dflt key (a ++ .set key v t n :: b) = some (v, Store.expiry dflt t n) := by
  unfold Store.lastWrite
  rw [List.reverse_append, List.reverse_cons, List.append_assoc, lastWriteRev_skip (fun o ho => h o (List.mem_reverse.mp ho))]
  simp [Store.lastWriteRev, hr]

theorem storeOp_mem {sw : I → Option (Str × Nat)} {past tr : List (Obs I)} {op : Store.Op} (h : op ∈ storeOps sw past tr) :
    ∃ x o y, tr = x ++ o :: y ∧ storeOp sw (past ++ x) o = some op := by
  induction tr generalizing past with
  | nil => cases h
  | cons o tr ih =>
    simp only [storeOps, List.mem_append] at h
    rcases h with h | h
    · refine ⟨[], o, tr, rfl, ?_⟩
      rw [List.append_nil]
      cases hs : storeOp sw past o with
      | none => rw [hs] at h; cases h
      | some x => rw [hs] at h; rw [List.mem_singleton.mp h]
    · obtain ⟨x, o', y, h1, h2⟩ := ih h
      exact ⟨o :: x, o', y, by rw [h1]; rfl, by rw [← h2]; simp⟩

end Verif.Rpc
