import Verif.Proofs.DashboardWalk
import Verif.Spec.DashboardMissed

/-! # How many messages can be missed (C133) -/

namespace Verif.Dashboard

open Verif Verif.Queue

/-- In a shorter list everything is at most so much earlier as there are elements less. -/
theorem idxOf_shrunk {l m : List Nat} (h : l.Sublist m) (hn : m.Nodup) {x : Nat} (hx : x ∈ l) : m.idxOf x ≤ l.idxOf x + (m.length - l.length) := by
  induction h with
  | slnil => cases hx
  | @cons l m a hs ih =>
    have hn := List.nodup_cons.1 hn
    have hne : a ≠ x := fun e => hn.1 (e ▸ hs.subset hx)
    have hb : (a == x) = false := by simpa using hne
    have := ih hn.2 hx
    have hl := hs.length_le
    rw [List.idxOf_cons, hb]
    simp only [cond_false, List.length_cons]
    omega
  | @cons_cons l m a hs ih =>
    have hn := List.nodup_cons.1 hn
    by_cases ha : a = x
    · subst ha; simp
    · have hx' : x ∈ l := by
        rcases List.mem_cons.1 hx with h | h
        · exact absurd h.symm ha
        · exact h
      have hb : (a == x) = false := by simpa using ha
      rw [List.idxOf_cons, List.idxOf_cons, hb]
      simp only [cond_false, List.length_cons]
      have := ih hn.2 hx'
      omega

/-- How many of `u` are at a position before `n`. -/
def before (l : List Nat) (n : Nat) (u : List Nat) : Nat := (u.filter (fun x => l.idxOf x < n)).length

theorem filter_le {u : List Nat} {p r : Nat → Bool} (h : ∀ x ∈ u, p x = true → r x = true) : (u.filter p).length ≤ (u.filter r).length := by
  rw [← List.countP_eq_length_filter, ← List.countP_eq_length_filter]
  exact List.countP_mono_left h

theorem filter_or {u : List Nat} {p r s : Nat → Bool} (h : ∀ x ∈ u, p x = true → r x = true ∨ s x = true) :
    (u.filter p).length ≤ (u.filter r).length + (u.filter s).length := by
  induction u with
  | nil => simp
  | cons x u ih =>
    have ih := ih (fun y hy => h y (List.mem_cons_of_mem _ hy))
    have hx := h x (by simp)
    cases hp : p x <;> cases hr : r x <;> cases hs : s x <;> simp only [hp, hr, hs, List.filter_cons, if_true, Bool.false_eq_true, if_false, List.length_cons] at hx ⊢ <;>
      first | omega | (simp at hx)

theorem window {l u : List Nat} (hu : u.Nodup) (hl : ∀ x ∈ u, x ∈ l) (n d : Nat) :
    (u.filter (fun x => decide (n ≤ l.idxOf x ∧ l.idxOf x < n + d))).length ≤ d := by
  have h1 : (u.filter (fun x => decide (n ≤ l.idxOf x ∧ l.idxOf x < n + d))) ⊆ (l.drop n).take d := by
    intro x hx
    obtain ⟨hx, hp⟩ := List.mem_filter.1 hx
    simp only [decide_eq_true_eq] at hp
    have hlt := List.idxOf_lt_length_of_mem (hl x hx)
    rw [List.mem_iff_getElem]
    refine ⟨l.idxOf x - n, by simp only [List.length_take, List.length_drop]; omega, ?_⟩
    simp only [List.getElem_take, List.getElem_drop]
    have : n + (l.idxOf x - n) = l.idxOf x := by omega
    simp only [this]
    exact List.getElem_idxOf hlt
  have hn : (u.filter (fun x => decide (n ≤ l.idxOf x ∧ l.idxOf x < n + d))).Nodup := hu.filter _
  have h2 := hn.length_le_of_subset h1
  simp only [List.length_take, List.length_drop] at h2
  omega

/-- One request brings at most so many before `n` as it takes out. -/
theorem before_step (v : View) {q : QInner} {a : Spec.Queue.Q} {used : List Id} (h : RQ q a (· ∈ used)) {op : Op} (hok : op.ok) (hf : ∀ id ∈ op.pushId, id ∉ used)
    {u : List Nat} (hu : u.Nodup) (h1 : ∀ x ∈ u, x ∈ v.all q) (h2 : ∀ x ∈ u, x ∈ v.all (Queue.step q op).1) (n : Nat) :
    before (v.all (Queue.step q op).1) n u ≤ before (v.all q) n u + ((v.all q).length - (v.all (Queue.step q op).1).length) := by
  have h' := (h.stepU hok hf).1
  rcases all_step v h hok hf with hd | hd
  · refine Nat.le_trans (filter_or (r := fun x => decide ((v.all q).idxOf x < n))
      (s := fun x => decide (n ≤ (v.all q).idxOf x ∧ (v.all q).idxOf x < n + ((v.all q).length - (v.all (Queue.step q op).1).length))) ?_)
      (Nat.add_le_add_left (window hu h1 n _) _)
    intro x hx hp
    have := idxOf_shrunk hd (all_nodup v h) (h2 x hx)
    simp only [decide_eq_true_eq] at hp ⊢
    omega
  · refine Nat.le_trans (filter_le ?_) (Nat.le_add_right _ _)
    intro x hx hp
    have := idxOf_sublist hd (all_nodup v h') (h1 x hx)
    simp only [decide_eq_true_eq] at hp ⊢
    omega

theorem allTheTime_now {v : View} {x : Nat} {q : QInner} {ops : List Op} (h : AllTheTime v x q ops) : x ∈ v.all q := by
  cases ops with
  | nil => exact h
  | cons o t => exact h.1

theorem allTheTime_append {v : View} {x : Nat} : ∀ (l r : List Op) {q : QInner}, AllTheTime v x q (l ++ r) →
    AllTheTime v x q l ∧ AllTheTime v x (Queue.run q l).1 r := by
  intro l
  induction l with
  | nil => intro r q h; exact ⟨allTheTime_now h, h⟩
  | cons o l ih =>
    intro r q h
    obtain ⟨h1, h2⟩ := ih r h.2
    exact ⟨⟨h.1, h1⟩, h2⟩

theorem takenOut_append (v : View) : ∀ (l r : List Op) (q : QInner), takenOut v q (l ++ r) = takenOut v q l + takenOut v (Queue.run q l).1 r := by
  intro l
  induction l with
  | nil => intro r q; simp [takenOut, Queue.run]
  | cons o l ih =>
    intro r q
    simp only [List.cons_append, takenOut, ih, Queue.run]
    omega

theorem before_run (v : View) (n : Nat) : ∀ (ops : List Op) {q : QInner} {a : Spec.Queue.Q} {used : List Id}, RQ q a (· ∈ used) → Fresh used ops →
    ∀ {u : List Nat}, u.Nodup → (∀ x ∈ u, AllTheTime v x q ops) →
    before (v.all (Queue.run q ops).1) n u ≤ before (v.all q) n u + takenOut v q ops ∧
    ∃ b, RQ (Queue.run q ops).1 b (· ∈ used ++ pushIds ops) := by
  intro ops
  induction ops with
  | nil => intro q a used h _ u _ _; exact ⟨by simp [Queue.run], a, by simpa [pushIds, Queue.run] using h⟩
  | cons o ops ih =>
    intro q a used h hf u hu hat
    obtain ⟨hok, hn, hf⟩ := hf
    rw [pushIds_cons] at hn hf
    have hf1 : ∀ id ∈ o.pushId, id ∉ used := fun i hi => hf i (List.mem_append_left _ hi)
    have h1 := before_step v h (hok o (by simp)) hf1 hu (fun x hx => (hat x hx).1) (fun x hx => allTheTime_now (hat x hx).2) n
    have h2 := (h.stepU (hok o (by simp)) hf1).1
    obtain ⟨h3, b, h4⟩ := ih h2 ⟨fun o ho => hok o (List.mem_cons_of_mem _ ho), (List.nodup_append.1 hn).2.1, by
      intro i hi hm
      rcases List.mem_append.1 hm with hm | hm
      · exact hf i (List.mem_append_right _ hi) hm
      · exact (List.nodup_append.1 hn).2.2 i hm i hi rfl⟩ hu (fun x hx => (hat x hx).2)
    refine ⟨?_, b, ?_⟩
    · simp only [takenOut]
      show before (v.all (Queue.run (Queue.step q o).1 ops).1) n u ≤ _
      omega
    · rw [pushIds_cons, ← List.append_assoc]
      exact h4

theorem walk_missed (lossy : Bytes → Str) (v : View) : ∀ (sess : List (List Op)) {q : QInner} {a : Spec.Queue.Q} {used : List Id} (o : Nat), RQ q a (· ∈ used) →
    Fresh used sess.flatten → ∀ {u : List Nat}, u.Nodup → (∀ x ∈ u, AllTheTime v x q sess.flatten) → (pageWalk lossy v q o sess).2 = true →
    (u.filter (fun x => decide (x ∉ (pageWalk lossy v q o sess).1))).length ≤ before (v.all q) o u + takenOut v q sess.flatten := by
  intro sess
  have stop : ∀ {q : QInner} {o : Nat} {u : List Nat}, (∀ x ∈ u, x ∈ v.all q) → ¬ o + pageSize < (v.all q).length →
      (u.filter (fun x => decide (x ∉ (queueMessages lossy (some q) (v.query o)).ids))).length ≤ before (v.all q) o u := by
    intro q o u hu hend
    refine filter_le ?_
    intro x hx hp
    rw [(queue_page lossy q v o).2] at hp
    simp only [decide_eq_true_eq] at hp ⊢
    have hlt := List.idxOf_lt_length_of_mem (hu x hx)
    rcases Nat.lt_or_ge ((v.all q).idxOf x) o with h | h
    · exact h
    · exact absurd (mem_page (hu x hx) h (by omega)) hp
  induction sess with
  | nil =>
    intro q a used o h _ u hu hat hend
    simp only [pageWalk] at hend ⊢
    rw [(queue_page lossy q v o).1] at hend
    have hend : ¬ o + pageSize < (v.all q).length := by
      intro hc
      have : nextOn pageSize (v.all q).length o = true := decide_eq_true hc
      rw [this] at hend
      cases hend
    exact Nat.le_trans (stop (fun x hx => allTheTime_now (hat x hx)) hend) (Nat.le_add_right _ _)
  | cons ops rest ih =>
    intro q a used o h hf u hu hat hend
    have hnow : ∀ x ∈ u, x ∈ v.all q := fun x hx => allTheTime_now (hat x hx)
    by_cases hlast : o + pageSize < (v.all q).length
    · have hnext : nextOn pageSize (queueMessages lossy (some q) (v.query o)).total o = true := by
        rw [(queue_page lossy q v o).1]
        exact decide_eq_true hlast
      have hturn : turn pageSize (queueMessages lossy (some q) (v.query o)).total o .next = o + pageSize := by
        simp only [turn, hnext, if_true]
      simp only [pageWalk, hnext, if_true, hturn] at hend ⊢
      obtain ⟨hok, hn, hf⟩ := hf
      rw [List.flatten_cons] at hok hn hf hat ⊢
      rw [pushIds_append] at hn hf
      rw [takenOut_append]
      -- those that are not on this page
      have hu' : (u.filter (fun x => decide (x ∉ (queueMessages lossy (some q) (v.query o)).ids))).Nodup := hu.filter _
      have hat' : ∀ x ∈ u.filter (fun x => decide (x ∉ (queueMessages lossy (some q) (v.query o)).ids)), AllTheTime v x q ops ∧
          AllTheTime v x (Queue.run q ops).1 rest.flatten := fun x hx => allTheTime_append ops _ (hat x (List.mem_filter.1 hx).1)
      have hb : before (v.all q) (o + pageSize) (u.filter (fun x => decide (x ∉ (queueMessages lossy (some q) (v.query o)).ids))) ≤ before (v.all q) o u := by
        unfold before
        rw [List.filter_filter]
        refine filter_le ?_
        intro x hx hp
        rw [(queue_page lossy q v o).2] at hp
        simp only [Bool.and_eq_true, decide_eq_true_eq] at hp ⊢
        rcases Nat.lt_or_ge ((v.all q).idxOf x) o with h | h
        · exact h
        · exact absurd (mem_page (hnow x hx) h hp.1) hp.2
      obtain ⟨h1, b, h2⟩ := before_run v (o + pageSize) ops h ⟨fun o ho => hok o (List.mem_append_left _ ho), (List.nodup_append.1 hn).1,
        fun i hi => hf i (List.mem_append_left _ hi)⟩ hu' (fun x hx => (hat' x hx).1)
      have h3 := ih (o + pageSize) h2 ⟨fun o ho => hok o (List.mem_append_right _ ho), (List.nodup_append.1 hn).2.1, by
        intro i hi hm
        rcases List.mem_append.1 hm with hm | hm
        · exact hf i (List.mem_append_right _ hi) hm
        · exact (List.nodup_append.1 hn).2.2 i hm i hi rfl⟩ hu' (fun x hx => (hat' x hx).2) hend
      rw [List.filter_filter] at h3
      refine Nat.le_trans (filter_le (r := fun x => decide (x ∉ (pageWalk lossy v (Queue.run q ops).1 (o + pageSize) rest).1) &&
        decide (x ∉ (queueMessages lossy (some q) (v.query o)).ids)) ?_) (by omega)
      intro x _ hp
      simp only [decide_eq_true_eq, List.mem_append, not_or, Bool.and_eq_true] at hp ⊢
      exact ⟨hp.2, hp.1⟩
    · have hnext : nextOn pageSize (queueMessages lossy (some q) (v.query o)).total o = false := by
        rw [(queue_page lossy q v o).1]
        exact decide_eq_false hlast
      simp only [pageWalk, hnext, Bool.false_eq_true, if_false]
      exact Nat.le_trans (stop hnow hlast) (Nat.le_add_right _ _)

end Verif.Dashboard
