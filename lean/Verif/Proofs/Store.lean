import Verif.Spec.Store

namespace Verif.Store

theorem run_append (dflt : Nat) : ∀ (a b : List Op) (m : Map), (run dflt m (a ++ b)).1 = (run dflt (run dflt m a).1 b).1 := by
  intro a
  induction a with
  | nil => intro b m; rfl
  | cons x t ih => intro b m; simp only [List.cons_append, run]; exact ih b _

theorem instantAdd_eq (now secs : Nat) :
    instantAdd now secs = if representable (now + secs * second) then some (now + secs * second) else none := by
  unfold instantAdd representable nanos second
  simp only [Nat.div_lt_iff_lt_mul (show 0 < 1000000000 by decide), decide_eq_true_eq]

theorem expiresAt_eq (dflt : Nat) (ttl : Option Nat) (now : Nat) :
    expiresAt dflt ttl now = if representable (expiry dflt ttl now) then some (expiry dflt ttl now) else none := by
  unfold expiresAt expiry
  cases ttl with
  | none => simp [instantAdd_eq]
  | some n => cases n <;> simp [instantAdd_eq]

theorem set_eq (dflt : Nat) (m : Map) (key : Str) (v : Bytes) (ttl : Option Nat) (now : Nat) :
    set dflt m key v ttl now = if representable (expiry dflt ttl now) then
      some (mset m key ⟨v, some (expiry dflt ttl now)⟩) else none := by
  unfold set
  rw [expiresAt_eq]
  by_cases hr : representable (expiry dflt ttl now)
  · simp only [hr, if_true]
  · simp only [hr, Bool.false_eq_true, if_false]

theorem step_set (dflt : Nat) (m : Map) (key : Str) (v : Bytes) (ttl : Option Nat) (now : Nat) :
    (step dflt m (.set key v ttl now)).1 = if representable (expiry dflt ttl now) then
      mset m key ⟨v, some (expiry dflt ttl now)⟩ else m := by
  have h := set_eq dflt m key v ttl now
  unfold step
  by_cases hr : representable (expiry dflt ttl now) = true
  · rw [if_pos hr] at h ⊢; simp only [h]
  · rw [if_neg hr] at h ⊢; simp only [h]

theorem run_one (dflt : Nat) (m : Map) (op : Op) : (run dflt m [op]).1 = (step dflt m op).1 := rfl

theorem ind {P : List Op → Prop} (h0 : P []) (h1 : ∀ es e, P es → P (es ++ [e])) : ∀ es, P es := by
  have : ∀ n es, es.length = n → P es := by
    intro n
    induction n with
    | zero => intro es h; rw [List.length_eq_zero_iff.1 h]; exact h0
    | succ n ih =>
      intro es h
      have hne : es ≠ [] := by intro hh; rw [hh] at h; simp at h
      rw [← List.dropLast_concat_getLast hne]
      refine h1 _ _ (ih _ ?_)
      rw [List.length_dropLast, h]; rfl
  exact fun es => this _ es rfl

theorem lastWrite_append (dflt : Nat) (key : Str) (ops : List Op) (op : Op) :
    lastWrite dflt key (ops ++ [op]) = lastWriteRev dflt key (op :: ops.reverse) := by
  simp [lastWrite]

/-- The stored entry is the last write, or the last write has been swept. -/
theorem stored (dflt : Nat) (key : Str) : ∀ (ops : List Op),
    match mget (run dflt [] ops).1 key with
    | some e => ∃ x, lastWrite dflt key ops = some (e.value, x) ∧ e.expiresAt = some x
    | none => lastWrite dflt key ops = none ∨ ∃ v x t, lastWrite dflt key ops = some (v, x) ∧ .sweep key t ∈ ops ∧ x ≤ t := by
  refine ind (Or.inl rfl) ?_
  intro ops op ih
  rw [run_append, lastWrite_append]
  generalize (run dflt [] ops).1 = m at *
  have keep : lastWriteRev dflt key (op :: ops.reverse) = lastWrite dflt key ops → ∀ m', mget m' key = mget m key →
      (match mget m' key with
      | some e => ∃ x, lastWriteRev dflt key (op :: ops.reverse) = some (e.value, x) ∧ e.expiresAt = some x
      | none => lastWriteRev dflt key (op :: ops.reverse) = none ∨
          ∃ v x t, lastWriteRev dflt key (op :: ops.reverse) = some (v, x) ∧ .sweep key t ∈ ops ++ [op] ∧ x ≤ t) := by
    intro hl m' hm
    rw [hm, hl]
    cases hg : mget m key with
    | some e => rw [hg] at ih; exact ih
    | none =>
      rw [hg] at ih
      rcases ih with ih | ⟨v, x, t, h1, h2, h3⟩
      · exact Or.inl ih
      · exact Or.inr ⟨v, x, t, h1, List.mem_append_left _ h2, h3⟩
  cases op with
  | set k v ttl now =>
    rw [run_one, step_set]
    by_cases hr : representable (expiry dflt ttl now)
    · rw [if_pos hr]
      by_cases hk : k = key
      · subst hk
        simp only [mget_mset, if_true]
        exact ⟨expiry dflt ttl now, by rw [lastWriteRev, if_pos ⟨rfl, hr⟩], rfl⟩
      · exact keep (by simp [lastWriteRev, hk, lastWrite]) _ (by rw [mget_mset, if_neg (fun h => hk h.symm)])
    · rw [if_neg hr]
      exact keep (by simp [lastWriteRev, hr, lastWrite]) _ rfl
  | get k now =>
    exact keep (by simp only [lastWriteRev, lastWrite]) _ rfl
  | del k =>
    simp only [run, step, del]
    by_cases hk : k = key
    · subst hk
      rw [mget_mdel_same]
      exact Or.inl (by simp [lastWriteRev])
    · exact keep (by simp [lastWriteRev, hk, lastWrite]) _ (mget_mdel_ne m (fun h => hk h.symm))
  | sweep k now =>
    simp only [run, step]
    by_cases hk : k = key
    · subst hk
      cases hg : mget m k with
      | none =>
        exact keep (by simp only [lastWriteRev, lastWrite]) _ (by simp only [sweep, hg])
      | some e =>
        by_cases hkp : keeps now e = true
        · exact keep (by simp only [lastWriteRev, lastWrite]) _ (by simp only [sweep, hg, hkp, if_true])
        · simp only [sweep, hg, hkp]
          rw [if_neg (by decide), mget_mdel_same]
          rw [hg] at ih
          obtain ⟨x, h1, h2⟩ := ih
          refine Or.inr ⟨e.value, x, now, h1, by simp, ?_⟩
          simp only [keeps, h2, decide_eq_true_eq, gt_iff_lt, Nat.not_lt] at hkp
          exact hkp
    · refine keep (by simp only [lastWriteRev, lastWrite]) _ ?_
      simp only [sweep]
      split
      · split
        · rfl
        · exact mget_mdel_ne m (fun h => hk h.symm)
      · rfl

theorem wf (dflt : Nat) : ∀ (ops : List Op) (m : Map), MWF m → MWF (run dflt m ops).1 := by
  intro ops
  induction ops with
  | nil => intro m h; exact h
  | cons op t ih =>
    intro m h
    simp only [run]
    apply ih
    cases op with
    | set k v ttl now =>
      rw [step_set]
      split
      · exact h.mset _ _
      · exact h
    | get k now => exact h
    | del k => exact h.mdel _
    | sweep k now =>
      simp only [step, sweep]
      split
      · split
        · exact h
        · exact h.mdel _
      · exact h

theorem contains_iff (key f : Str) : contains key f = true ↔ f <:+: key := by
  induction key with
  | nil => simp [contains, List.isPrefixOf_iff_prefix]
  | cons c t ih =>
    simp only [contains, Bool.or_eq_true, List.isPrefixOf_iff_prefix, ih, List.infix_cons_iff]

end Verif.Store
