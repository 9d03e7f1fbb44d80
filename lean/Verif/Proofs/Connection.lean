import Verif.Spec.Connection

/-!
# Lemmas about connections
-/

namespace Verif.Wire

variable {E : Type} {handle : Frame → E → E × Option Response}

theorem Conn.run_snoc (s : Conn E) (evs : List CEvent) (ev : CEvent) :
    s.run handle (evs ++ [ev]) = (s.run handle evs).step handle ev := by
  unfold Conn.run; rw [List.foldl_append]; rfl

theorem step_none {s : Conn E} {i : Nat} (h : s.running[i]? = none) : s.step handle (.complete i) = s := by
  unfold Conn.step; simp only [h]

theorem step_some {s : Conn E} {i : Nat} {f : Frame} (h : s.running[i]? = some f) :
    s.step handle (.complete i) =
      { s with
        engine := (handle f s.engine).1
        running := s.running.eraseIdx i
        answered := s.answered ++ answerOf f (handle f s.engine).2 } := by
  unfold Conn.step; simp only [h]

theorem post_none {s : Conn E} {i : Nat} (h : s.answered[i]? = none) : s.step handle (.post i) = s := by
  unfold Conn.step; simp only [h]

theorem post_some {s : Conn E} {i : Nat} {a : Nat × Response} (h : s.answered[i]? = some a) :
    s.step handle (.post i) =
      { s with answered := s.answered.eraseIdx i, outbound := s.outbound ++ [.response a.1 a.2] } := by
  unfold Conn.step; simp only [h]

/-- An answer as it is sent. -/
def sends (a : Nat × Response) : Outbound := .response a.1 a.2

/-- What has been written, what waits to be written, and the answers not yet sent. -/
def Conn.outs (s : Conn E) : List Outbound := s.written ++ s.outbound ++ s.answered.map sends

theorem mem_outs {s : Conn E} {o : Outbound} : o ∈ s.outs ↔ o ∈ s.written ∨ o ∈ s.outbound ∨ ∃ a ∈ s.answered, sends a = o := by
  simp only [Conn.outs, List.mem_append, List.mem_map, or_assoc]

theorem perm_eraseIdx {α : Type} {l : List α} {i : Nat} {x : α} (h : l[i]? = some x) : (x :: l.eraseIdx i).Perm l := by
  induction l generalizing i with
  | nil => simp at h
  | cons a l ih =>
    cases i with
    | zero => simp at h; subst h; simp
    | succ i =>
      simp only [List.getElem?_cons_succ] at h
      rw [List.eraseIdx_cons_succ]
      exact (List.Perm.swap _ _ _).trans ((ih h).cons a)

/-- Sending an answer and writing a frame change none of these; completing a task adds its answer. -/
theorem outs_post (s : Conn E) (i : Nat) : (s.step handle (.post i)).outs.Perm s.outs := by
  cases h : s.answered[i]? with
  | none => rw [post_none h]
  | some a =>
    rw [post_some h]
    simp only [Conn.outs, List.append_assoc]
    refine List.Perm.append_left _ (List.Perm.append_left _ ?_)
    exact (perm_eraseIdx h).map sends

theorem outs_write (s : Conn E) : (s.step handle .write).outs = s.outs := by
  simp only [Conn.step]
  split
  · rfl
  · next o rest h => simp [Conn.outs, h]

theorem outs_complete {s : Conn E} {i : Nat} {f : Frame} (h : s.running[i]? = some f) :
    (s.step handle (.complete i)).outs = s.outs ++ (answerOf f (handle f s.engine).2).map sends := by
  rw [step_some h]
  simp [Conn.outs]

theorem reads_append (a b : List CEvent) : reads (a ++ b) = reads a ++ reads b := by
  induction a with
  | nil => rfl
  | cons x a ih => cases x <;> simp only [List.cons_append, reads, ih]

theorem pushedOf_append (a b : List CEvent) : pushedOf (a ++ b) = pushedOf a ++ pushedOf b := by
  induction a with
  | nil => rfl
  | cons x a ih => cases x <;> simp only [List.cons_append, pushedOf, ih]

theorem pushesIn_append (a b : List Outbound) : pushesIn (a ++ b) = pushesIn a ++ pushesIn b := by
  induction a with
  | nil => rfl
  | cons x a ih => cases x <;> simp only [List.cons_append, pushesIn, ih]

theorem answers_append (id : Nat) (a b : List Outbound) : answers id (a ++ b) = answers id a + answers id b :=
  List.countP_append

theorem requested_append (id : Nat) (a b : List CEvent) : requested id (a ++ b) = requested id a + requested id b := by
  unfold requested; rw [reads_append]; exact List.countP_append

theorem snoc_ind {α : Type} {P : List α → Prop} (h0 : P []) (h1 : ∀ l a, P l → P (l ++ [a])) (l : List α) : P l := by
  have : ∀ r : List α, P r.reverse := fun r => by
    induction r with
    | nil => exact h0
    | cons a r ih => rw [List.reverse_cons]; exact h1 _ _ ih
  have h := this l.reverse
  rwa [List.reverse_reverse] at h

theorem countP_eraseIdx {α : Type} (p : α → Bool) (l : List α) (i : Nat) (a : α) (h : l[i]? = some a) :
    l.countP p = (l.eraseIdx i).countP p + (if p a then 1 else 0) := by
  induction l generalizing i with
  | nil => cases h
  | cons x l ih =>
    cases i with
    | zero =>
      obtain rfl : x = a := Option.some.inj h
      exact List.countP_cons
    | succ i =>
      have := ih i h
      rw [List.eraseIdx_cons_succ, List.countP_cons, List.countP_cons, this]
      omega

/-- Where the requests with one id are. -/
def Conn.pending (s : Conn E) (id : Nat) : Nat :=
  answers id s.outs + s.running.countP (fun f => f.id = id)
    + s.inbound.countP (fun f => f.id = id)

theorem pending_le (e : E) (id : Nat) (evs : List CEvent) :
    (Conn.run handle { engine := e } evs).pending id ≤ requested id evs
    ∧ ((∀ f e, (handle f e).2 ≠ none) → (Conn.run handle { engine := e } evs).pending id = requested id evs) := by
  induction evs using snoc_ind with
  | h0 => exact ⟨Nat.le_refl _, fun _ => rfl⟩
  | h1 evs ev ih =>
    rw [Conn.run_snoc, requested_append]
    generalize Conn.run handle { engine := e } evs = s at ih
    have go : ∀ s' : Conn E, ∀ n : Nat, s'.pending id = s.pending id + n →
        (s'.pending id ≤ requested id evs + n
        ∧ ((∀ f e, (handle f e).2 ≠ none) → s'.pending id = requested id evs + n)) :=
      fun s' n hn => ⟨by have := ih.1; omega, fun h => by have := ih.2 h; omega⟩
    cases ev with
    | read f =>
      apply go
      show answers id s.outs + s.running.countP _ + (s.inbound ++ [f]).countP _ = _
      rw [List.countP_append]
      exact (Nat.add_assoc _ _ _).symm
    | spawn =>
      apply go
      simp only [Conn.step]
      cases hi : s.inbound with
      | nil => rfl
      | cons f rest =>
        show answers id s.outs + (s.running ++ [f]).countP _ + rest.countP _ = answers id s.outs + s.running.countP _ + s.inbound.countP _ + 0
        rw [hi, List.countP_append, List.countP_cons (l := rest), List.countP_cons (l := []), List.countP_nil]
        omega
    | complete i =>
      cases hr : s.running[i]? with
      | none => rw [step_none hr]; exact ih
      | some f =>
        have hc := countP_eraseIdx (fun f : Frame => decide (f.id = id)) s.running i f hr
        have ho := outs_complete (handle := handle) hr
        have h0 : (s.step handle (.complete i)).pending id = answers id (s.outs ++ (answerOf f (handle f s.engine).2).map sends)
            + (s.running.eraseIdx i).countP (fun f => f.id = id) + s.inbound.countP (fun f => f.id = id) := by
          rw [← ho, step_some hr]; rfl
        rw [h0, answers_append]
        have ih1 : answers id s.outs + s.running.countP (fun f => f.id = id) + s.inbound.countP (fun f => f.id = id) ≤ requested id evs := ih.1
        have ih2 : (∀ f e, (handle f e).2 ≠ none) →
            answers id s.outs + s.running.countP (fun f => f.id = id) + s.inbound.countP (fun f => f.id = id) = requested id evs := ih.2
        have hz : requested id [CEvent.complete i] = 0 := rfl
        cases ha : (handle f s.engine).2 with
        | none =>
          refine ⟨?_, fun h => absurd ha (h f s.engine)⟩
          have h1 : answers id ((answerOf f none).map sends) = 0 := rfl
          omega
        | some a =>
          have h1 : answers id ((answerOf f (some a)).map sends) = (if decide (f.id = id) then 1 else 0) := by
            show answers id [.response f.id a] = _
            unfold answers
            rw [List.countP_cons, List.countP_nil]
            by_cases h : f.id = id <;> simp [isAnswer, h]
          exact ⟨by omega, fun h => by have := ih2 h; omega⟩
    | post i =>
      apply go
      have h1 : answers id (s.step handle (.post i)).outs = answers id s.outs := (outs_post s i).countP_eq _
      show answers id (s.step handle (.post i)).outs + (s.step handle (.post i)).running.countP _ + (s.step handle (.post i)).inbound.countP _ = _ + 0
      rw [h1]
      cases h : s.answered[i]? with
      | none => rw [post_none h]; rfl
      | some a => rw [post_some h]; rfl
    | pushed p => exact ih
    | bridge =>
      apply go
      simp only [Conn.step]
      cases hi : s.pushes with
      | nil => rfl
      | cons p rest =>
        show answers id (s.written ++ (s.outbound ++ [.push 0 p]) ++ s.answered.map sends) + _ + _ = answers id (s.written ++ s.outbound ++ s.answered.map sends) + _ + _ + 0
        simp only [answers_append]
        rfl
    | write =>
      apply go
      show answers id (s.step handle .write).outs + (s.step handle .write).running.countP _ + (s.step handle .write).inbound.countP _ = _ + 0
      rw [outs_write]
      simp only [Conn.step]
      split <;> rfl

/-- Pushes keep their order. -/
theorem pushes_order (e : E) (evs : List CEvent) :
    let s := Conn.run handle { engine := e } evs
    pushesIn s.written ++ pushesIn s.outbound ++ s.pushes = pushedOf evs := by
  induction evs using snoc_ind with
  | h0 => rfl
  | h1 evs ev ih =>
    rw [Conn.run_snoc, pushedOf_append]
    generalize Conn.run handle { engine := e } evs = s at ih
    simp only at ih ⊢
    cases ev with
    | read f => rw [← ih]; exact (List.append_nil _).symm
    | spawn =>
      rw [← ih]
      unfold Conn.step
      cases s.inbound <;> exact (List.append_nil _).symm
    | complete i =>
      rw [← ih]
      cases hr : s.running[i]? with
      | none => rw [step_none hr]; exact (List.append_nil _).symm
      | some f =>
        rw [step_some hr]
        exact (List.append_nil _).symm
    | post i =>
      rw [← ih]
      cases hr : s.answered[i]? with
      | none => rw [post_none hr]; exact (List.append_nil _).symm
      | some a =>
        rw [post_some hr]
        simp only [pushedOf, List.append_nil, pushesIn_append, pushesIn]
    | pushed p => rw [← ih]; simp only [Conn.step, pushedOf, List.append_assoc]
    | bridge =>
      rw [← ih]
      unfold Conn.step
      cases hi : s.pushes with
      | nil => simp only [hi, pushedOf, List.append_nil]
      | cons p rest => simp only [pushesIn_append, pushesIn, pushedOf, List.append_assoc, List.append_nil, List.cons_append, List.nil_append]
    | write =>
      rw [← ih]
      unfold Conn.step
      cases hi : s.outbound with
      | nil => simp only [hi, pushedOf, List.append_nil, pushesIn]
      | cons o rest =>
        have : pushesIn (o :: rest) = pushesIn [o] ++ pushesIn rest := pushesIn_append [o] rest
        simp only [pushesIn_append, this, pushedOf, List.append_assoc, List.append_nil]

/-- Every answer was computed from a request with its id. -/
theorem answer_from (e : E) (evs : List CEvent) (id : Nat) (r : Response)
    (h : Outbound.response id r ∈ (Conn.run handle { engine := e } evs).outs) :
    ∃ f ∈ reads evs, f.id = id ∧ ∃ e', (handle f e').2 = some r := by
  suffices (∀ f, f ∈ (Conn.run handle { engine := e } evs).inbound ∨ f ∈ (Conn.run handle { engine := e } evs).running →
        f ∈ reads evs)
      ∧ ∀ id r, Outbound.response id r ∈ (Conn.run handle { engine := e } evs).outs →
        ∃ f ∈ reads evs, f.id = id ∧ ∃ e', (handle f e').2 = some r from this.2 id r h
  clear h id r
  induction evs using snoc_ind with
  | h0 =>
    refine ⟨fun f hf => ?_, fun id r hr => nomatch hr⟩
    rcases hf with hf | hf <;> cases hf
  | h1 evs ev ih =>
    rw [Conn.run_snoc, reads_append]
    generalize Conn.run handle { engine := e } evs = s at ih
    obtain ⟨iha, ihb⟩ := ih
    have iha' : ∀ f, f ∈ s.inbound ∨ f ∈ s.running → f ∈ reads evs ++ reads [ev] :=
      fun f hf => List.mem_append.mpr (.inl (iha f hf))
    have ihb' : ∀ id r, Outbound.response id r ∈ s.outs →
        ∃ f ∈ reads evs ++ reads [ev], f.id = id ∧ ∃ e', (handle f e').2 = some r := fun id r hr => by
      obtain ⟨f, h1, h2⟩ := ihb id r hr
      exact ⟨f, List.mem_append.mpr (.inl h1), h2⟩
    cases ev with
    | read f =>
      refine ⟨fun g hg => ?_, ihb'⟩
      rcases hg with hg | hg
      · rcases List.mem_append.mp hg with hg | hg
        · exact iha' g (.inl hg)
        · exact List.mem_append.mpr (.inr hg)
      · exact iha' g (.inr hg)
    | spawn =>
      unfold Conn.step
      cases hi : s.inbound with
      | nil =>
        refine ⟨fun g hg => iha' g ?_, ihb'⟩
        rwa [hi] at hg ⊢
      | cons f rest =>
        refine ⟨fun g hg => ?_, ihb'⟩
        rcases hg with hg | hg
        · exact iha' g (.inl (by rw [hi]; exact List.mem_cons_of_mem _ hg))
        · rcases List.mem_append.mp hg with hg | hg
          · exact iha' g (.inr hg)
          · rw [List.mem_singleton.mp hg]; exact iha' f (.inl (by rw [hi]; exact List.mem_cons_self))
    | complete i =>
      cases hr : s.running[i]? with
      | none => rw [step_none hr]; exact ⟨iha', ihb'⟩
      | some f =>
        refine ⟨fun g hg => ?_, fun id r hrr => ?_⟩
        · rw [step_some hr] at hg
          rcases hg with hg | hg
          · exact iha' g (.inl hg)
          · exact iha' g (.inr (List.mem_of_mem_eraseIdx hg))
        · rw [outs_complete hr] at hrr
          rcases List.mem_append.mp hrr with hrr | hrr
          · exact ihb' id r hrr
          · cases ha : (handle f s.engine).2 with
            | none => rw [ha] at hrr; cases hrr
            | some a =>
              rw [ha] at hrr
              obtain ⟨rfl, rfl⟩ := Outbound.response.inj (List.mem_singleton.mp hrr)
              exact ⟨f, iha' f (.inr (List.mem_of_getElem? hr)), rfl, _, ha⟩
    | post i =>
      refine ⟨fun g hg => iha' g ?_, fun id r hr => ihb' id r ((outs_post s i).mem_iff.mp hr)⟩
      cases h : s.answered[i]? with
      | none => rwa [post_none h] at hg
      | some a => rwa [post_some h] at hg
    | pushed p => exact ⟨iha', ihb'⟩
    | bridge =>
      unfold Conn.step
      cases hi : s.pushes with
      | nil => exact ⟨iha', ihb'⟩
      | cons p rest =>
        refine ⟨iha', fun id r hr => ihb' id r ?_⟩
        simp only [Conn.outs, List.mem_append, List.mem_singleton, reduceCtorEq, or_false] at hr ⊢
        exact hr
    | write =>
      refine ⟨fun g hg => iha' g ?_, fun id r hr => ihb' id r (by rwa [outs_write] at hr)⟩
      simp only [Conn.step] at hg
      split at hg <;> exact hg

end Verif.Wire
