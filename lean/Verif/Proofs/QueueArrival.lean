import Verif.Proofs.QueueSpec

/-!
# The waiting line is the arrival order, sorted by priority

`step` keeps the line sorted; `stepArr` keeps it in the order of arrival and searches.  They answer
every request alike.
-/

namespace Verif.Spec.Queue

/-- Line up one after the other. -/
def sortA (l : List Item) : List Item := l.foldl (fun acc x => lineUp x acc) []

theorem sortA_append (l : List Item) (x : Item) : sortA (l ++ [x]) = lineUp x (sortA l) := by
  simp [sortA]

theorem sortA_perm (l : List Item) : (sortA l).Perm l := by
  have := lineUp_fold_perm l []
  simpa [sortA] using this

/-- Sorted by decreasing priority. -/
def SortedP (l : List Item) : Prop := l.Pairwise (fun x y => y.priority ≤ x.priority)

theorem SortedP.lineUp {l : List Item} (h : SortedP l) (x : Item) : SortedP (lineUp x l) := by
  unfold SortedP Queue.lineUp
  rw [List.pairwise_append]
  refine ⟨h.filter _, ?_, ?_⟩
  · rw [List.pairwise_cons]
    refine ⟨?_, h.filter _⟩
    intro y hy
    have := (List.mem_filter.1 hy).2
    simp only [decide_eq_true_eq] at this
    omega
  · intro y hy z hz
    have h1 := (List.mem_filter.1 hy).2
    simp only [decide_eq_true_eq] at h1
    rcases List.mem_cons.1 hz with rfl | hz
    · exact h1
    · have h2 := (List.mem_filter.1 hz).2
      simp only [decide_eq_true_eq] at h2
      omega

theorem sortA_sorted (l : List Item) : SortedP (sortA l) := by
  have : ∀ (xs acc : List Item), SortedP acc → SortedP (xs.foldl (fun acc x => lineUp x acc) acc) := by
    intro xs
    induction xs with
    | nil => intro acc h; exact h
    | cons x xs ih => intro acc h; exact ih _ (h.lineUp x)
  exact this l [] List.Pairwise.nil

theorem sorted_split {l : List Item} (h : SortedP l) (p : Nat) :
    l.filter (fun y => decide (p ≤ y.priority)) ++ l.filter (fun y => decide (y.priority < p)) = l := by
  induction l with
  | nil => rfl
  | cons x t ih =>
    have ht := (List.pairwise_cons.1 h).2
    have hx := (List.pairwise_cons.1 h).1
    rw [List.filter_cons, List.filter_cons]
    by_cases hp : p ≤ x.priority
    · have : ¬ x.priority < p := by omega
      simp only [hp, decide_true, if_true, this, decide_false, Bool.false_eq_true, if_false, List.cons_append, ih ht]
    · have hlt : x.priority < p := by omega
      have h1 : t.filter (fun y => decide (p ≤ y.priority)) = [] := by
        rw [List.filter_eq_nil_iff]; intro y hy; have := hx y hy; simp; omega
      have h2 : t.filter (fun y => decide (y.priority < p)) = t := by
        rw [List.filter_eq_self]; intro y hy; have := hx y hy; simp; omega
      simp [hp, hlt, h1, h2]

theorem lineUp_filter (p : Item → Bool) {l : List Item} (h : SortedP l) (x : Item) :
    (lineUp x l).filter p = if p x then lineUp x (l.filter p) else l.filter p := by
  unfold lineUp
  rw [List.filter_append, List.filter_cons, List.filter_filter, List.filter_filter]
  have e1 : l.filter (fun a => p a && decide (x.priority ≤ a.priority)) = (l.filter p).filter (fun a => decide (x.priority ≤ a.priority)) := by
    rw [List.filter_filter]; apply List.filter_congr; intro a _; rw [Bool.and_comm]
  have e2 : l.filter (fun a => p a && decide (a.priority < x.priority)) = (l.filter p).filter (fun a => decide (a.priority < x.priority)) := by
    rw [List.filter_filter]; apply List.filter_congr; intro a _; rw [Bool.and_comm]
  rw [e1, e2]
  split
  · rfl
  · exact sorted_split (h.filter p) _

theorem fold_filter (p : Item → Bool) : ∀ (xs acc : List Item), SortedP acc →
    (xs.foldl (fun acc x => lineUp x acc) acc).filter p = (xs.filter p).foldl (fun acc x => lineUp x acc) (acc.filter p) := by
  intro xs
  induction xs with
  | nil => intro acc _; rfl
  | cons x xs ih =>
    intro acc h
    simp only [List.foldl_cons]
    rw [ih _ (h.lineUp x), List.filter_cons, lineUp_filter p h]
    split <;> rfl

theorem sortA_filter (p : Item → Bool) (l : List Item) : sortA (l.filter p) = (sortA l).filter p := by
  unfold sortA
  rw [fold_filter p l [] List.Pairwise.nil]
  rfl

theorem find_congr {p p' : Item → Bool} : ∀ {l : List Item}, (∀ x ∈ l, p x = p' x) → l.find? p = l.find? p' := by
  intro l
  induction l with
  | nil => intro _; rfl
  | cons x t ih =>
    intro h
    rw [List.find?_cons, List.find?_cons, h x (List.mem_cons_self ..), ih (fun y hy => h y (List.mem_cons_of_mem _ hy))]

theorem pick_append (l : List Item) (x : Item) :
    pick (l ++ [x]) = match pick l with
      | none => some x
      | some h => if x.priority ≤ h.priority then some h else some x := by
  unfold pick
  rw [List.find?_append]
  cases hp : l.find? (fun y => l.all (fun z => decide (z.priority ≤ y.priority))) with
  | none =>
    -- then l is empty
    have hl : l = [] := by
      cases l with
      | nil => rfl
      | cons a t =>
        exfalso
        have hnone := List.find?_eq_none.1 hp
        -- a maximal element exists
        have : ∀ (m : List Item), m ≠ [] → ∃ y ∈ m, ∀ z ∈ m, z.priority ≤ y.priority := by
          intro m
          induction m with
          | nil => intro h; exact absurd rfl h
          | cons b u ih =>
            intro _
            cases u with
            | nil => exact ⟨b, List.mem_cons_self .., by intro z hz; simp at hz; subst hz; exact Nat.le_refl _⟩
            | cons c v =>
              obtain ⟨y, hy, hmax⟩ := ih (by simp)
              by_cases hb : b.priority ≤ y.priority
              · refine ⟨y, List.mem_cons_of_mem _ hy, ?_⟩
                intro z hz
                rcases List.mem_cons.1 hz with rfl | hz
                · exact hb
                · exact hmax z hz
              · refine ⟨b, List.mem_cons_self .., ?_⟩
                intro z hz
                rcases List.mem_cons.1 hz with rfl | hz
                · exact Nat.le_refl _
                · have := hmax z hz; omega
        obtain ⟨y, hy, hmax⟩ := this (a :: t) (by simp)
        apply hnone y hy
        rw [List.all_eq_true]
        intro z hz; simpa using hmax z hz
    subst hl
    simp
  | some h =>
    simp only
    have hmax : ∀ z ∈ l, z.priority ≤ h.priority := by
      have := List.find?_some hp
      rw [List.all_eq_true] at this
      intro z hz; simpa using this z hz
    have hmem := List.mem_of_find?_eq_some hp
    by_cases hx : x.priority ≤ h.priority
    · simp only [hx, if_true]
      have : l.find? (fun y => (l ++ [x]).all (fun z => decide (z.priority ≤ y.priority))) =
          l.find? (fun y => l.all (fun z => decide (z.priority ≤ y.priority))) := by
        apply find_congr
        intro y hy
        rw [Bool.eq_iff_iff]
        simp only [List.all_eq_true, decide_eq_true_eq, List.mem_append, List.mem_singleton]
        constructor
        · intro hall z hz; exact hall z (Or.inl hz)
        · intro hall z hz
          rcases hz with hz | rfl
          · exact hall z hz
          · exact Nat.le_trans hx (hall h hmem)
      rw [this, hp]; rfl
    · simp only [hx, if_false]
      have : l.find? (fun y => (l ++ [x]).all (fun z => decide (z.priority ≤ y.priority))) = none := by
        rw [List.find?_eq_none]
        intro y hy
        simp only [List.all_eq_true, decide_eq_true_eq, List.mem_append, List.mem_singleton]
        intro hall
        have h1 := hall x (Or.inr rfl)
        have h2 := hmax y hy
        omega
      rw [this]
      simp only [Option.none_or, List.find?_cons]
      have : (l ++ [x]).all (fun z => decide (z.priority ≤ x.priority)) = true := by
        simp only [List.all_eq_true, decide_eq_true_eq, List.mem_append, List.mem_singleton]
        intro z hz
        rcases hz with hz | rfl
        · have := hmax z hz; omega
        · exact Nat.le_refl _
      rw [this]

theorem rev_ind {P : List Item → Prop} (h0 : P []) (h1 : ∀ l x, P l → P (l ++ [x])) : ∀ l, P l := by
  intro l
  rw [← List.reverse_reverse l]
  induction l.reverse with
  | nil => exact h0
  | cons x t ih => rw [List.reverse_cons]; exact h1 _ _ ih

theorem head_lineUp {l : List Item} (hs : SortedP l) (x : Item) :
    (lineUp x l).head? = match l.head? with
      | none => some x
      | some h => if x.priority ≤ h.priority then some h else some x := by
  unfold lineUp
  cases l with
  | nil => rfl
  | cons h t =>
    simp only [List.head?_cons, List.filter_cons]
    by_cases hx : x.priority ≤ h.priority
    · simp [hx]
    · have : t.filter (fun y => decide (x.priority ≤ y.priority)) = [] := by
        rw [List.filter_eq_nil_iff]
        intro y hy
        have := (List.pairwise_cons.1 hs).1 y hy
        simp; omega
      simp [hx, this]

theorem pick_eq (l : List Item) : pick l = (sortA l).head? := by
  induction l using rev_ind with
  | h0 => rfl
  | h1 l x ih =>
    rw [pick_append, sortA_append, head_lineUp (sortA_sorted l), ih]

/-- The sorted line and the arrival order represent the same queue. -/
structure RA (q qa : Q) : Prop where
  ready : q.ready = sortA qa.ready
  flight : q.flight = qa.flight
  dead : q.dead = qa.dead

theorem serveArr_spec {q qa : Q} (h : RA q qa) (hd : q.Distinct) (due : Nat) :
    (serve due q).1 = (serveArr due qa).1 ∧ RA (serve due q).2 (serveArr due qa).2 := by
  obtain ⟨h1, h2, h3⟩ := h
  unfold serve serveArr
  rw [pick_eq, ← h1]
  cases hr : q.ready with
  | nil => exact ⟨rfl, h1, h2, h3⟩
  | cons x t =>
    simp only [List.head?_cons]
    refine ⟨trivial, ?_, by simp only [h2], h3⟩
    simp only [dropReady, sortA_filter]
    rw [← h1, hr, List.filter_cons]
    have hnd := Distinct.ready hd
    rw [hr] at hnd
    simp only [List.map_cons, List.nodup_cons] at hnd
    have := (filter_none (k := Item.id) (l := t) (i := x.id) (fun y hy hh => hnd.1 (hh ▸ List.mem_map.2 ⟨y, hy, rfl⟩))).2
    simp only [ne_eq, not_true_eq_false, decide_false, Bool.false_eq_true, if_false]
    exact this.symm

theorem serveArrN_spec (due : Nat) : ∀ (n : Nat) {q qa : Q}, RA q qa → q.Distinct →
    (serveN due n q).1 = (serveArrN due n qa).1 ∧ RA (serveN due n q).2 (serveArrN due n qa).2 := by
  intro n
  induction n with
  | zero => intro q qa h _; exact ⟨rfl, h⟩
  | succ n ih =>
    intro q qa h hd
    obtain ⟨h1, h2⟩ := serveArr_spec h hd due
    have hp := serve_perm due q
    simp only [serveN, serveArrN]
    rcases hs : serve due q with ⟨o, q'⟩
    rcases hs' : serveArr due qa with ⟨o', qa'⟩
    rw [hs, hs'] at h1 h2
    rw [hs] at hp
    simp only at h1 h2 hp
    subst h1
    cases o with
    | none => exact ⟨rfl, h2⟩
    | some x =>
      have hd' : q'.Distinct := (hp.map (fun c : Core => c.1)).nodup_iff.2 hd
      obtain ⟨i1, i2⟩ := ih h2 hd'
      exact ⟨by simp only [i1], i2⟩

theorem find_perm {l l' : List Item} (hp : l.Perm l') (hn : (l.map (·.id)).Nodup) (id : Nat) :
    l.find? (fun x => x.id = id) = l'.find? (fun x => x.id = id) := by
  have hn' : (l'.map (·.id)).Nodup := (hp.map _).nodup_iff.1 hn
  cases h : l.find? (fun x => decide (x.id = id)) with
  | none =>
    symm
    rw [List.find?_eq_none] at h ⊢
    intro x hx; exact h x (hp.mem_iff.2 hx)
  | some x =>
    have hm := List.mem_of_find?_eq_some h
    have hi : x.id = id := by simpa using List.find?_some h
    have hm' := hp.mem_iff.1 hm
    have key : ∀ (m : List Item), (m.map (·.id)).Nodup → x ∈ m → m.find? (fun y => decide (y.id = id)) = some x := by
      intro m
      induction m with
      | nil => intro _ h; cases h
      | cons y t ih =>
        intro hnd hx
        simp only [List.map_cons, List.nodup_cons] at hnd
        rw [List.find?_cons]
        rcases List.mem_cons.1 hx with rfl | hx
        · simp [hi]
        · have : y.id ≠ id := fun hh => hnd.1 (by rw [hh, ← hi]; exact List.mem_map.2 ⟨x, hx, rfl⟩)
          simp only [this, decide_false]
          exact ih hnd.2 hx
    exact (key l' hn' hm').symm

theorem stepArr_spec {vt mr : Nat} {tr : Str} {q qa : Q} (h : RA q qa) (hd : q.Distinct) (op : Req) :
    (step vt mr tr q op).2 = (stepArr vt mr tr qa op).2 ∧
    RA (step vt mr tr q op).1 (stepArr vt mr tr qa op).1 := by
  obtain ⟨h1, h2, h3⟩ := h
  have hlr : ∀ i, lookupReady i q = lookupReady i qa := by
    intro i
    unfold lookupReady
    have hp := sortA_perm qa.ready
    rw [← h1] at hp
    exact find_perm hp (Distinct.ready hd) i
  have hlf : ∀ i, lookupFlight i q = lookupFlight i qa := by intro i; unfold lookupFlight; rw [h2]
  have hld : ∀ i, lookupDead i q = lookupDead i qa := by intro i; unfold lookupDead; rw [h3]
  have hset : ∀ i, RA (settle i q) (settle i qa) := by
    intro i
    refine ⟨?_, ?_, h3⟩
    · simp only [settle, dropReady, sortA_filter, h1]
    · simp only [settle, h2]
  cases op with
  | push i payload priority now =>
    refine ⟨rfl, ?_, h2, h3⟩
    simp only [step, stepArr, sortA_append, h1]
  | pop now =>
    obtain ⟨a, b⟩ := serveArr_spec ⟨h1, h2, h3⟩ hd (now + vt)
    simp only [step, stepArr, a]
    exact ⟨trivial, b⟩
  | consume n now =>
    obtain ⟨a, b⟩ := serveArrN_spec (now + vt) n ⟨h1, h2, h3⟩ hd
    simp only [step, stepArr, a]
    exact ⟨trivial, b⟩
  | ack i =>
    simp only [step, stepArr, hlr, hlf]
    exact ⟨trivial, hset i⟩
  | nack i reason now =>
    simp only [step, stepArr, fail, hlf, hlr]
    cases hf : lookupFlight i qa with
    | some x =>
      simp only
      split
      · exact ⟨rfl, (hset i).ready, (hset i).flight, by simp only [h3]⟩
      · exact ⟨rfl, by simp only [sortA_append, h1], (hset i).flight, h3⟩
    | none =>
      simp only
      cases lookupReady i qa with
      | some x =>
        simp only
        split
        · exact ⟨rfl, (hset i).ready, (hset i).flight, by simp only [h3]⟩
        · exact ⟨rfl, h1, h2, h3⟩
      | none => exact ⟨rfl, h1, h2, h3⟩
  | tick now now' =>
    simp only [step, stepArr, h2]
    split
    · refine ⟨rfl, ?_, ?_, ?_⟩
      · simp only [expire, h1, h2, sortA, List.foldl_append]
      · simp only [expire, h2]
      · simp only [expire, h2, h3]
    · exact ⟨rfl, h1, h2, h3⟩
  | peekDlq limit offset =>
    simp only [step, stepArr, h3]
    exact ⟨trivial, h1, h2, h3⟩
  | moveToQueue i =>
    simp only [step, stepArr, replay, hld]
    cases lookupDead i qa with
    | none => exact ⟨rfl, h1, h2, h3⟩
    | some d => exact ⟨rfl, by simp only [sortA_append, h1], h2, by simp only [h3]⟩
  | deleteDlq i =>
    simp only [step, stepArr, discard, hld]
    cases lookupDead i qa with
    | none => exact ⟨rfl, h1, h2, h3⟩
    | some d => exact ⟨rfl, h1, h2, by simp only [h3]⟩
  | purgeDlq => exact ⟨by simp only [step, stepArr, h3], h1, h2, rfl⟩
  | counters =>
    refine ⟨?_, h1, h2, h3⟩
    simp only [step, stepArr, h1, h2, h3, (sortA_perm qa.ready).length_eq]

/-- The ids pushed in a history. -/
def addedIds (ops : List Req) : List Nat := ops.flatMap (fun op => (addedBy op).map (·.1))

theorem runArr_spec {vt mr : Nat} {tr : Str} : ∀ (ops : List Req) {q qa : Q}, RA q qa → q.Distinct →
    (addedIds ops).Nodup → (∀ id ∈ addedIds ops, id ∉ q.ids) →
    (run vt mr tr q ops).2 = (runArr vt mr tr qa ops).2 := by
  intro ops
  induction ops with
  | nil => intro q qa _ _ _ _; rfl
  | cons op t ih =>
    intro q qa h hd hn hf
    simp only [addedIds, List.flatMap_cons] at hn hf
    obtain ⟨a, b⟩ := stepArr_spec (vt := vt) (mr := mr) (tr := tr) h hd op
    have hf1 : ∀ c ∈ addedBy op, c.1 ∉ q.ids := fun c hc =>
      hf c.1 (List.mem_append_left _ (List.mem_map.2 ⟨c, hc, rfl⟩))
    have hn' := List.nodup_append.1 hn
    simp only [run, runArr, a]
    rw [ih b (Distinct.step hd op hf1) hn'.2.1]
    intro id hid hc
    rcases ids_step hd op hc with hc | hc
    · exact hf id (List.mem_append_right _ hid) hc
    · exact hn'.2.2 id hc id hid rfl

end Verif.Spec.Queue
