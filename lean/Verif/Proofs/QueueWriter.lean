import Verif.Spec.QueueWriter
import Verif.Proofs.QueueCrash

/-!
# The queue's storage task refines the abstract commits
-/

namespace Verif.Queue

open Spec.Queue (Item Dead Q Core Req Ans)

/-! ## Without failing statements and commits -/

theorem execFaults_clean : ∀ (l : List StorageOp) (fs : List Fault) (db : DB), (fs.all fun f => f = .none) = true →
    execFaults db l fs = execAll db l := by
  intro l
  induction l with
  | nil => intro fs db _; cases fs <;> rfl
  | cons op t ih =>
    intro fs db h
    cases fs with
    | nil => exact ih [] (execOp db op) h
    | cons f fs =>
      simp only [List.all_cons, Bool.and_eq_true, decide_eq_true_eq] at h
      obtain ⟨h1, h2⟩ := h
      subst h1
      exact ih fs (execOp db op) h2

/-- The abstract system. -/
def WSys.abs (s : WSys) : Sys := { q := s.q, db := s.db, pending := s.batch ++ s.chan }

/-- A flush, abstractly: all of the batch or nothing is committed. -/
theorem flushBatch_clean {db : DB} {batch : List StorageOp} {r : Outcome} (h : r.clean = true) :
    ∃ n, (flushBatch db batch r).1 = execAll db (batch.take n) ∧ (flushBatch db batch r).2 = batch.drop n ∧ n ≤ batch.length := by
  cases r with
  | noStart => exact ⟨0, by simp [flushBatch, execAll], by simp [flushBatch], Nat.zero_le _⟩
  | commit fs =>
    exact ⟨batch.length, by simp [flushBatch, execFaults_clean _ _ _ h], by simp [flushBatch], Nat.le_refl _⟩
  | noCommit => cases h

theorem WSys.recv_abs {size : Nat} {s : WSys} {r : Outcome} (h : r.clean = true) :
    ∃ n, (s.recv size r).abs = (s.abs.step (.commit n)).1 := by
  unfold WSys.recv
  cases hc : s.chan with
  | nil => exact ⟨0, by simp [WSys.abs, Sys.step, execAll, hc]⟩
  | cons op rest =>
    simp only
    generalize hb : s.batch ++ [op] ++ rest.take (size - (s.batch ++ [op]).length) = b
    have hp : b ++ rest.drop (size - (s.batch ++ [op]).length) = s.batch ++ op :: rest := by
      rw [← hb]; simp
    generalize hd : rest.drop (size - (s.batch ++ [op]).length) = d at hp
    by_cases hs : size ≤ b.length
    · simp only [hs, if_true]
      obtain ⟨n, h1, h2, h3⟩ := flushBatch_clean (db := s.db) (batch := b) h
      refine ⟨n, ?_⟩
      simp only [WSys.abs, Sys.step, h1, h2, hc, ← hp]
      rw [List.take_append_of_le_length h3, List.drop_append_of_le_length h3]
    · simp only [hs, if_false]
      exact ⟨0, by simp only [WSys.abs, Sys.step, hc, ← hp, List.take_zero, List.drop_zero]; rfl⟩

theorem WSys.tick_abs {s : WSys} {r : Outcome} (h : r.clean = true) :
    ∃ n, (s.tick r).abs = (s.abs.step (.commit n)).1 := by
  unfold WSys.tick
  cases hb : s.batch with
  | nil => exact ⟨0, by simp [WSys.abs, Sys.step, execAll, hb]⟩
  | cons x l =>
    simp only
    obtain ⟨n, h1, h2, h3⟩ := flushBatch_clean (db := s.db) (batch := x :: l) h
    refine ⟨n, ?_⟩
    simp only [WSys.abs, Sys.step, h1, h2, hb]
    rw [List.take_append_of_le_length h3, List.drop_append_of_le_length h3]

/-- The operations sent by the requests of a history. -/
def wsent (size : Nat) (s : WSys) : List KEvent → List StorageOp
  | [] => []
  | .op o :: t => (Queue.step s.q o).2.2 ++ wsent size (s.step size (.op o)).1 t
  | e :: t => wsent size (s.step size e).1 t

/-- The events that are not commits. -/
def Event.client : Event → Bool
  | .commit _ => false
  | _ => true

theorem Clean.tail {e : KEvent} {t : List KEvent} (h : Clean (e :: t)) : Clean t := fun x hx => h x (List.mem_cons_of_mem _ hx)
theorem Clean.left {a b : List KEvent} (h : Clean (a ++ b)) : Clean a := fun x hx => h x (List.mem_append_left _ hx)
theorem Clean.right {a b : List KEvent} (h : Clean (a ++ b)) : Clean b := fun x hx => h x (List.mem_append_right _ hx)

/-- The storage task refines the abstract commits. -/
theorem writer_sim (size : Nat) : ∀ (es : List KEvent) (s : WSys), Clean es →
    ∃ es', es'.filter Event.client = clientPart es ∧ (s.abs.run es').1 = (s.run size es).1.abs ∧
      sent s.abs es' = wsent size s es ∧
      ((s.abs.run es').2.filterMap (fun o => o)) = (s.run size es).2.filterMap (fun o => o) := by
  intro es
  induction es with
  | nil => intro s _; exact ⟨[], rfl, rfl, rfl, rfl⟩
  | cons e t ih =>
    intro s h
    obtain ⟨es', h1, h2, h3, h4⟩ := ih (s.step size e).1 h.tail
    cases e with
    | op o =>
      have ha : (s.step size (.op o)).1.abs = (s.abs.step (.op o)).1 := by
        simp [WSys.step, WSys.abs, Sys.step]
      rw [ha] at h2 h3 h4
      refine ⟨.op o :: es', ?_, ?_, ?_, ?_⟩
      · simp only [List.filter_cons, Event.client, if_true, clientPart, h1]
      · simp only [Sys.run, h2, WSys.run]
      · simp only [sent, sentBy, wsent, h3]; rfl
      · simp only [Sys.run, WSys.run, List.filterMap_cons, h4]; rfl
    | recv r =>
      obtain ⟨n, hn⟩ := WSys.recv_abs (size := size) (s := s) (h (.recv r) (List.mem_cons_self ..))
      have ha : (s.step size (.recv r)).1.abs = (s.abs.step (.commit n)).1 := hn
      rw [ha] at h2 h3 h4
      refine ⟨.commit n :: es', ?_, ?_, ?_, ?_⟩
      · simp only [List.filter_cons, Event.client, Bool.false_eq_true, if_false, clientPart, h1]
      · simp only [Sys.run, h2, WSys.run]
      · simp only [sent, sentBy, wsent, h3, List.nil_append]
      · simp only [Sys.run, WSys.run, List.filterMap_cons, h4]; rfl
    | tick r =>
      obtain ⟨n, hn⟩ := WSys.tick_abs (s := s) (h (.tick r) (List.mem_cons_self ..))
      have ha : (s.step size (.tick r)).1.abs = (s.abs.step (.commit n)).1 := hn
      rw [ha] at h2 h3 h4
      refine ⟨.commit n :: es', ?_, ?_, ?_, ?_⟩
      · simp only [List.filter_cons, Event.client, Bool.false_eq_true, if_false, clientPart, h1]
      · simp only [Sys.run, h2, WSys.run]
      · simp only [sent, sentBy, wsent, h3, List.nil_append]
      · simp only [Sys.run, WSys.run, List.filterMap_cons, h4]; rfl
    | restart now =>
      have ha : (s.step size (.restart now)).1.abs = (s.abs.step (.restart now)).1 := rfl
      rw [ha] at h2 h3 h4
      refine ⟨.restart now :: es', ?_, ?_, ?_, ?_⟩
      · simp only [List.filter_cons, Event.client, if_true, clientPart, h1]
      · simp only [Sys.run, h2, WSys.run]
      · simp only [sent, sentBy, wsent, h3, List.nil_append]
      · simp only [Sys.run, WSys.run, List.filterMap_cons, h4]; rfl

/-! ## How far the task has come -/

theorem WSys.run_append (size : Nat) : ∀ (a b : List KEvent) (s : WSys), (s.run size (a ++ b)).1 = ((s.run size a).1.run size b).1 := by
  intro a
  induction a with
  | nil => intro b s; rfl
  | cons e t ih => intro b s; simp only [List.cons_append, WSys.run, ih]

theorem wsent_append (size : Nat) : ∀ (a b : List KEvent) (s : WSys),
    wsent size s (a ++ b) = wsent size s a ++ wsent size (s.run size a).1 b := by
  intro a
  induction a with
  | nil => intro b s; rfl
  | cons e t ih =>
    intro b s
    cases e <;> simp only [List.cons_append, wsent, WSys.run, ih, List.append_assoc]

theorem recv_chan (size : Nat) (s : WSys) (r : Outcome) : (s.recv size r).chan.length ≤ s.chan.length - 1 := by
  unfold WSys.recv
  cases hc : s.chan with
  | nil => simp [hc]
  | cons op rest =>
    simp only [List.length_cons, Nat.add_sub_cancel]
    split <;> simp [List.length_drop]

theorem tick_chan (s : WSys) (r : Outcome) : (s.tick r).chan = s.chan := by
  unfold WSys.tick; split <;> rfl

/-- Old operations leave the channel. -/
theorem chan_bound (size : Nat) : ∀ (a : List KEvent) (s : WSys), NoRestart a →
    (s.run size a).1.chan.length ≤ (s.chan.length - receives a) + (wsent size s a).length := by
  intro a
  induction a with
  | nil => intro s _; simp [WSys.run, receives, wsent]
  | cons e t ih =>
    intro s hn
    have hi := ih (s.step size e).1 (fun x hx => hn x (List.mem_cons_of_mem _ hx))
    simp only [WSys.run]
    cases e with
    | op o =>
      simp only [WSys.step, receives, wsent, List.length_append] at hi ⊢
      omega
    | recv r =>
      have := recv_chan size s r
      simp only [WSys.step, receives, wsent] at hi ⊢
      omega
    | tick r =>
      have := tick_chan s r
      simp only [WSys.step, receives, wsent, this] at hi ⊢
      omega
    | restart now => exact absurd rfl (hn _ (List.mem_cons_self ..) now)

theorem pending_commit (s : Sys) (n : Nat) : ((s.step (.commit n)).1.pending).length ≤ s.pending.length := by
  simp [Sys.step, List.length_drop]

/-- Only requests add to what is outstanding. -/
theorem pending_bound (size : Nat) : ∀ (a : List KEvent) (s : WSys), Clean a → NoRestart a →
    (s.run size a).1.abs.pending.length ≤ s.abs.pending.length + (wsent size s a).length := by
  intro a
  induction a with
  | nil => intro s _ _; simp [WSys.run, wsent]
  | cons e t ih =>
    intro s hc hn
    have hi := ih (s.step size e).1 hc.tail (fun x hx => hn x (List.mem_cons_of_mem _ hx))
    simp only [WSys.run]
    cases e with
    | op o =>
      simp only [WSys.step, wsent, List.length_append, WSys.abs] at hi ⊢
      omega
    | recv r =>
      obtain ⟨n, h⟩ := WSys.recv_abs (size := size) (s := s) (hc (.recv r) (List.mem_cons_self ..))
      have hb := pending_commit s.abs n
      rw [← h] at hb
      simp only [WSys.step, wsent] at hi ⊢
      omega
    | tick r =>
      obtain ⟨n, h⟩ := WSys.tick_abs (s := s) (hc (.tick r) (List.mem_cons_self ..))
      have hb := pending_commit s.abs n
      rw [← h] at hb
      simp only [WSys.step, wsent] at hi ⊢
      omega
    | restart now => exact absurd rfl (hn _ (List.mem_cons_self ..) now)

theorem tick_good {s : WSys} {r : Outcome} (h : r.good = true) : (s.tick r).batch = [] := by
  unfold WSys.tick
  cases hb : s.batch with
  | nil => exact hb
  | cons x l =>
    cases r with
    | noStart => cases h
    | commit fs => rfl
    | noCommit => cases h

theorem Outcome.good_clean {r : Outcome} (h : r.good = true) : r.clean = true := by
  cases r with
  | noStart => cases h
  | commit fs => exact h
  | noCommit => cases h

/-- After enough receptions and one flush that works, everything old is committed. -/
theorem settled (size : Nat) {a b : List KEvent} {r : Outcome} {s : WSys} (hc : Clean (a ++ [.tick r] ++ b)) (hr : r.good = true)
    (hn : NoRestart (a ++ b)) (hrec : s.chan.length ≤ receives a) :
    (s.run size (a ++ [.tick r] ++ b)).1.abs.pending.length ≤ (wsent size s (a ++ [.tick r] ++ b)).length := by
  have hna : NoRestart a := fun e he => hn e (List.mem_append_left _ he)
  have hnb : NoRestart b := fun e he => hn e (List.mem_append_right _ he)
  have h1 := chan_bound size a s hna
  have h2 := pending_bound size b ((s.run size (a ++ [.tick r])).1) hc.right hnb
  have h3 : (s.run size (a ++ [.tick r])).1 = (s.run size a).1.tick r := by rw [WSys.run_append]; rfl
  have h4 : ((s.run size a).1.tick r).abs.pending = (s.run size a).1.chan := by
    simp only [WSys.abs, tick_good hr, tick_chan, List.nil_append]
  have h5 : wsent size s (a ++ [.tick r]) = wsent size s a := by rw [wsent_append]; simp [wsent]
  rw [WSys.run_append, wsent_append, h5, List.length_append]
  rw [h3, h4] at h2
  rw [h3]
  omega

/-! ## Histories of the task and abstract ones -/

theorem clientPart_append : ∀ (a b : List KEvent), clientPart (a ++ b) = clientPart a ++ clientPart b := by
  intro a b
  induction a with
  | nil => rfl
  | cons e t ih => cases e <;> simp only [List.cons_append, clientPart, ih]

theorem lastStart_client (es : List Event) : lastStart (es.filter Event.client) = lastStart es := by
  unfold lastStart
  generalize 0 = n
  induction es generalizing n with
  | nil => rfl
  | cons e t ih => cases e <;> simp only [List.filter_cons, Event.client, if_true, Bool.false_eq_true, if_false, List.foldl_cons, ih]

theorem eventIds_client : ∀ (es : List Event), eventIds (es.filter Event.client) = eventIds es := by
  intro es
  induction es with
  | nil => rfl
  | cons e t ih => cases e <;> simp only [List.filter_cons, Event.client, if_true, Bool.false_eq_true, if_false, eventIds, ih]

theorem valid_client {es : List Event} (h : ValidHist (es.filter Event.client)) : ValidHist es := by
  refine ⟨?_, by rw [← eventIds_client]; exact h.2⟩
  intro e he
  cases e with
  | commit n => trivial
  | op o => exact h.1 _ (List.mem_filter.2 ⟨he, rfl⟩)
  | restart n => trivial

theorem noRestart_client {es : List Event} (h : noRestart (es.filter Event.client)) : noRestart es := by
  intro e he now hh
  exact h e (List.mem_filter.2 ⟨he, by rw [hh]; rfl⟩) now hh

theorem noRestart_part : ∀ {es : List KEvent}, NoRestart es → noRestart (clientPart es) := by
  intro es
  induction es with
  | nil => intro _ e he; cases he
  | cons x t ih =>
    intro h
    have ht := ih (fun e he => h e (List.mem_cons_of_mem _ he))
    cases x with
    | op o =>
      intro e he now
      rcases List.mem_cons.1 he with he | he
      · rw [he]; exact fun hh => nomatch hh
      · exact ht e he now
    | recv r => exact ht
    | tick r => exact ht
    | restart now => exact absurd rfl (h _ (List.mem_cons_self ..) now)

theorem opsOf_client : ∀ (es : List Event), opsOf (es.filter Event.client) = opsOf es := by
  intro es
  induction es with
  | nil => rfl
  | cons e t ih => cases e <;> simp only [List.filter_cons, Event.client, if_true, Bool.false_eq_true, if_false, opsOf, ih]

/-- Without restarts the queue in memory depends on the requests alone. -/
theorem WSys.run_ops (size : Nat) : ∀ (es : List KEvent), NoRestart es → ∀ (s : WSys),
    (s.run size es).1.q = (Verif.Queue.run s.q (opsOf (clientPart es))).1 := by
  intro es
  induction es with
  | nil => intro _ s; rfl
  | cons e t ih =>
    intro h s
    have hi := ih (fun e he => h e (List.mem_cons_of_mem _ he)) (s.step size e).1
    simp only [WSys.run, hi]
    cases e with
    | op o => rfl
    | recv r =>
      have : (s.recv size r).q = s.q := by unfold WSys.recv; split <;> (try rfl); simp only; split <;> rfl
      simp only [WSys.step, this, clientPart]
    | tick r =>
      have : (s.tick r).q = s.q := by unfold WSys.tick; split <;> rfl
      simp only [WSys.step, this, clientPart]
    | restart now => exact absurd rfl (h _ (List.mem_cons_self ..) now)

/-- A cut of the abstract history is a cut of the history. -/
theorem cut_client : ∀ (es : List KEvent) (x y : List Event), clientPart es = x ++ y →
    ∃ c d, es = c ++ d ∧ clientPart c = x ∧ ∀ o y', y = .op o :: y' → ∃ d', d = .op o :: d' := by
  intro es
  induction es with
  | nil =>
    intro x y h
    simp only [clientPart] at h
    obtain ⟨h1, h2⟩ := List.append_eq_nil_iff.1 h.symm
    subst h1 h2
    exact ⟨[], [], rfl, rfl, fun o y' hh => nomatch hh⟩
  | cons e t ih =>
    intro x y h
    have skip : clientPart (e :: t) = clientPart t →
        ∃ c d, e :: t = c ++ d ∧ clientPart c = x ∧ ∀ o y', y = .op o :: y' → ∃ d', d = .op o :: d' := by
      intro he
      have hpre : clientPart [e] = [] := by
        have := clientPart_append [e] t
        rw [List.singleton_append, he] at this
        exact List.append_cancel_right (this.symm.trans (List.nil_append _).symm)
      rw [he] at h
      obtain ⟨c, d, h1, h2, h3⟩ := ih x y h
      refine ⟨e :: c, d, by rw [h1]; rfl, ?_, h3⟩
      rw [← List.singleton_append, clientPart_append, hpre, h2]; rfl
    cases x with
    | nil =>
      cases e with
      | op o =>
        refine ⟨[], .op o :: t, rfl, rfl, ?_⟩
        intro o' y' hy
        simp only [clientPart, List.nil_append] at h
        rw [hy] at h
        injection h with h5 h6
        injection h5 with h5
        exact ⟨t, by rw [h5]⟩
      | restart now =>
        refine ⟨[], .restart now :: t, rfl, rfl, ?_⟩
        intro o' y' hy
        simp only [clientPart, List.nil_append] at h
        rw [hy] at h
        injection h with h5 h6
        cases h5
      | recv r => exact skip rfl
      | tick r => exact skip rfl
    | cons u x =>
      cases e with
      | op o =>
        simp only [clientPart, List.cons_append] at h
        injection h with h5 h6
        obtain ⟨c, d, h1, h2, h3⟩ := ih x y h6
        exact ⟨.op o :: c, d, by rw [h1]; rfl, by rw [clientPart, h2, h5], h3⟩
      | restart now =>
        simp only [clientPart, List.cons_append] at h
        injection h with h5 h6
        obtain ⟨c, d, h1, h2, h3⟩ := ih x y h6
        exact ⟨.restart now :: c, d, by rw [h1]; rfl, by rw [clientPart, h2, h5], h3⟩
      | recv r => exact skip rfl
      | tick r => exact skip rfl

end Verif.Queue
