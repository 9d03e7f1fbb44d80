import Verif.Spec.Queue

/-!
# Facts about the queue specification
-/

namespace Verif.Spec.Queue

theorem lineUp_perm (x : Item) (l : List Item) : (lineUp x l).Perm (x :: l) := by
  unfold lineUp
  refine List.perm_middle.trans (List.Perm.cons _ ?_)
  have h := List.filter_append_perm (fun y : Item => decide (x.priority ≤ y.priority)) l
  have e : (fun y : Item => !decide (x.priority ≤ y.priority)) = (fun y => decide (y.priority < x.priority)) := by
    funext y; by_cases h : x.priority ≤ y.priority
    · simp [h, Nat.not_lt.2 h]
    · simp [h, Nat.not_le.1 h]
  rwa [e] at h

theorem file_perm (due : Nat) (x : Item) (l : List (Nat × Item)) : (file due x l).Perm ((due, x) :: l) := by
  unfold file
  refine List.perm_middle.trans (List.Perm.cons _ ?_)
  have h := List.filter_append_perm (fun y : Nat × Item => decide (y.1 ≤ due)) l
  have e : (fun y : Nat × Item => !decide (y.1 ≤ due)) = (fun y => decide (due < y.1)) := by
    funext y; by_cases h : y.1 ≤ due
    · simp [h, Nat.not_lt.2 h]
    · simp [h, Nat.not_le.1 h]
  rwa [e] at h

theorem lineUp_fold_perm (xs l : List Item) : (xs.foldl (fun l x => lineUp x l) l).Perm (l ++ xs) := by
  induction xs generalizing l with
  | nil => simp
  | cons x xs ih =>
    simp only [List.foldl_cons]
    refine (ih _).trans ?_
    refine ((lineUp_perm x l).append_right xs).trans ?_
    simp only [List.cons_append]
    exact List.perm_middle.symm

theorem mem_lineUp {x y : Item} {l : List Item} : y ∈ lineUp x l ↔ y = x ∨ y ∈ l := by
  rw [(lineUp_perm x l).mem_iff, List.mem_cons]

theorem mem_file {due : Nat} {x : Item} {l : List (Nat × Item)} {e : Nat × Item} :
    e ∈ file due x l ↔ e = (due, x) ∨ e ∈ l := by
  rw [(file_perm due x l).mem_iff, List.mem_cons]

theorem mem_lineUp_fold {xs l : List Item} {y : Item} :
    y ∈ xs.foldl (fun l x => lineUp x l) l ↔ y ∈ l ∨ y ∈ xs := by
  rw [(lineUp_fold_perm xs l).mem_iff, List.mem_append]

/-- All ids in the queue. -/
def Q.ids (q : Q) : List Nat := q.cores.map (·.1)

theorem ids_eq (q : Q) : q.ids = q.ready.map (·.id) ++ (q.flight.map (·.2.id) ++ q.dead.map (·.item.id)) := by
  simp only [Q.ids, Q.cores, List.map_append, List.map_map]; rfl

/-- Handing out changes nothing but the place. -/
theorem serve_perm (due : Nat) (q : Q) : (serve due q).2.cores.Perm q.cores := by
  unfold serve
  cases h : q.ready with
  | nil => simp
  | cons x rest =>
    simp only [Q.cores, h]
    have h1 := (file_perm due x.bump q.flight).map (fun e : Nat × Item => e.2.core)
    refine (List.Perm.append_left _ (h1.append_right _)).trans ?_
    simp only [List.map_cons, List.cons_append]
    exact List.perm_middle

theorem serveN_perm (due n : Nat) (q : Q) : (serveN due n q).2.cores.Perm q.cores := by
  induction n generalizing q with
  | zero => simp [serveN]
  | succ n ih =>
    simp only [serveN]
    have hp := serve_perm due q
    rcases hs : serve due q with ⟨o, q'⟩
    rw [hs] at hp
    cases o with
    | none => simpa using hp
    | some x => simp only; exact (ih q').trans hp

theorem filter_split {α β : Type} (l : List α) (p : α → Bool) (f : α → β) :
    ((l.filter (fun x => !p x)).map f ++ (l.filter p).map f).Perm (l.map f) := by
  rw [← List.map_append]
  exact (List.perm_append_comm.trans (List.filter_append_perm p l)).map f

theorem perm_interchange {α : Type} (a b c d : List α) : ((a ++ c) ++ (b ++ d)).Perm ((a ++ b) ++ (c ++ d)) := by
  simp only [List.append_assoc]
  refine List.Perm.append_left a ?_
  rw [← List.append_assoc, ← List.append_assoc]
  exact List.Perm.append_right d List.perm_append_comm

/-- The ids present are pairwise different. -/
def Q.Distinct (q : Q) : Prop := q.ids.Nodup

theorem Distinct.ready {q : Q} (h : q.Distinct) : (q.ready.map (·.id)).Nodup := by
  unfold Q.Distinct at h; rw [ids_eq] at h; exact (List.nodup_append.1 h).1

theorem Distinct.flight {q : Q} (h : q.Distinct) : (q.flight.map (·.2.id)).Nodup := by
  unfold Q.Distinct at h; rw [ids_eq] at h
  exact (List.nodup_append.1 (List.nodup_append.1 h).2.1).1

theorem Distinct.dead {q : Q} (h : q.Distinct) : (q.dead.map (·.item.id)).Nodup := by
  unfold Q.Distinct at h; rw [ids_eq] at h
  exact (List.nodup_append.1 (List.nodup_append.1 h).2.1).2.1

theorem Distinct.rf {q : Q} (h : q.Distinct) {x : Item} {e : Nat × Item} (hx : x ∈ q.ready) (he : e ∈ q.flight) :
    x.id ≠ e.2.id := by
  unfold Q.Distinct at h; rw [ids_eq] at h
  exact (List.nodup_append.1 h).2.2 _ (List.mem_map.2 ⟨x, hx, rfl⟩) _
    (List.mem_append_left _ (List.mem_map.2 ⟨e, he, rfl⟩))

theorem Distinct.rd {q : Q} (h : q.Distinct) {x : Item} {d : Dead} (hx : x ∈ q.ready) (hd : d ∈ q.dead) :
    x.id ≠ d.item.id := by
  unfold Q.Distinct at h; rw [ids_eq] at h
  exact (List.nodup_append.1 h).2.2 _ (List.mem_map.2 ⟨x, hx, rfl⟩) _
    (List.mem_append_right _ (List.mem_map.2 ⟨d, hd, rfl⟩))

theorem Distinct.fd {q : Q} (h : q.Distinct) {e : Nat × Item} {d : Dead} (he : e ∈ q.flight) (hd : d ∈ q.dead) :
    e.2.id ≠ d.item.id := by
  unfold Q.Distinct at h; rw [ids_eq] at h
  exact (List.nodup_append.1 (List.nodup_append.1 h).2.1).2.2 _ (List.mem_map.2 ⟨e, he, rfl⟩) _
    (List.mem_map.2 ⟨d, hd, rfl⟩)

theorem filter_eq_of_nodup {α : Type} {k : α → Nat} {l : List α} {x : α} (h : (l.map k).Nodup) (hx : x ∈ l) :
    l.filter (fun y => k y = k x) = [x] := by
  induction l with
  | nil => cases hx
  | cons y t ih =>
    simp only [List.map_cons, List.nodup_cons] at h
    rw [List.filter_cons]
    rcases List.mem_cons.1 hx with rfl | hx
    · simp only [decide_true, if_true, List.cons.injEq, true_and]
      rw [List.filter_eq_nil_iff]
      intro z hz
      have : k z ≠ k x := fun hh => h.1 (hh ▸ List.mem_map.2 ⟨z, hz, rfl⟩)
      simpa using this
    · have : k y ≠ k x := fun hh => h.1 (hh ▸ List.mem_map.2 ⟨x, hx, rfl⟩)
      simp only [this, decide_false, Bool.false_eq_true, if_false]
      exact ih h.2 hx

theorem filter_none {α : Type} {k : α → Nat} {l : List α} {i : Nat} (h : ∀ x ∈ l, k x ≠ i) :
    l.filter (fun y => decide (k y = i)) = [] ∧ l.filter (fun y => decide (k y ≠ i)) = l := by
  constructor
  · rw [List.filter_eq_nil_iff]; intro x hx; simpa using h x hx
  · rw [List.filter_eq_self]; intro x hx; simpa using h x hx

theorem not_decide_ne (a b : Nat) : (!decide (a = b)) = decide (a ≠ b) := by simp

/-- Settling removes exactly the cores with that id. -/
theorem settle_perm (id : Nat) (q : Q) :
    ((settle id q).cores ++ removedBy q (.ack id)).Perm q.cores := by
  have h1 := filter_split q.ready (fun x => decide (x.id = id)) Item.core
  have h2 := filter_split q.flight (fun e => decide (e.2.id = id)) (fun e => e.2.core)
  simp only [not_decide_ne] at h1 h2
  have h3 := h1.append (h2.append_right (q.dead.map (fun d => d.item.core)))
  refine List.Perm.trans ?_ h3
  simp only [settle, Q.cores, removedBy, dropReady, dropFlight]
  simp only [List.append_assoc]
  refine List.Perm.append_left _ ?_
  rw [← List.append_assoc, ← List.append_assoc]
  generalize List.map (fun e => Item.core e.2) (List.filter (fun e => decide (e.2.id ≠ id)) q.flight) = A
  generalize List.map (fun d : Dead => Item.core d.item) q.dead = B
  generalize List.map Item.core (List.filter (fun x => decide (x.id = id)) q.ready) = C
  generalize List.map (fun e => Item.core e.2) (List.filter (fun e => decide (e.2.id = id)) q.flight) = D
  -- ((A ++ B) ++ C) ++ D ~ C ++ (A ++ (D ++ B))
  have p1 : ((A ++ B ++ C) ++ D).Perm (C ++ (A ++ B) ++ D) := List.Perm.append_right D List.perm_append_comm
  refine p1.trans ?_
  simp only [List.append_assoc]
  refine List.Perm.append_left _ (List.Perm.append_left _ List.perm_append_comm)

/-- Conservation: every request removes exactly `removedBy` and adds exactly `addedBy`. -/
theorem step_perm {vt mr : Nat} {tr : Str} {q : Q} (hd : q.Distinct) (op : Req) :
    ((step vt mr tr q op).1.cores ++ removedBy q op).Perm (q.cores ++ addedBy op) := by
  cases op with
  | push id payload priority now =>
    simp only [step, removedBy, addedBy, List.append_nil, Q.cores]
    refine (((lineUp_perm _ q.ready).map Item.core).append_right _).trans ?_
    simp only [List.map_cons, List.cons_append]
    refine List.Perm.trans ?_ (List.perm_append_comm (l₁ := [(id, payload, priority, now)]))
    simp [Item.core]
  | pop now => simpa [step, removedBy, addedBy] using serve_perm _ q
  | consume max now => simpa [step, removedBy, addedBy] using serveN_perm _ max q
  | ack id => simpa [step, addedBy] using settle_perm id q
  | nack id reason now =>
    simp only [step, removedBy, addedBy, List.append_nil, fail]
    cases hf : lookupFlight id q with
    | some x =>
      simp only
      obtain ⟨e, he, hex⟩ := Option.map_eq_some_iff.1 hf
      have hem := List.mem_of_find?_eq_some he
      have hei : e.2.id = id := by simpa using List.find?_some he
      subst hex
      have hff : q.flight.filter (fun y => decide (y.2.id = id)) = [e] := by
        have := filter_eq_of_nodup (k := fun e : Nat × Item => e.2.id) (Distinct.flight hd) hem
        simpa only [hei] using this
      have hrr := filter_none (k := Item.id) (l := q.ready) (i := id) (fun x hx => by rw [← hei]; exact Distinct.rf hd hx hem)
      have hs := settle_perm id q
      simp only [removedBy, hff, hrr.1, List.map_nil, List.nil_append, List.map_cons] at hs
      split
      · refine List.Perm.trans ?_ hs
        simp only [Q.cores, settle, List.map_append, List.map_cons, List.map_nil]
        simp only [List.append_assoc]
        exact List.Perm.refl _
      · refine List.Perm.trans ?_ hs
        simp only [Q.cores, settle, dropReady]
        rw [hrr.2]
        refine (((lineUp_perm _ q.ready).map Item.core).append_right _).trans ?_
        simp only [List.map_cons, List.cons_append, List.append_assoc]
        rw [← List.append_assoc, ← List.append_assoc, ← List.append_assoc]
        exact (List.perm_append_singleton _ _).symm
    | none =>
      simp only
      cases hr : lookupReady id q with
      | none => simp
      | some x =>
        simp only
        have hxm := List.mem_of_find?_eq_some hr
        have hxi : x.id = id := by simpa using List.find?_some hr
        split
        · have hrr : q.ready.filter (fun y => decide (y.id = id)) = [x] := by
            have := filter_eq_of_nodup (k := Item.id) (Distinct.ready hd) hxm
            simpa only [hxi] using this
          have hff := filter_none (k := fun e : Nat × Item => e.2.id) (l := q.flight) (i := id)
            (fun e he => by rw [← hxi]; exact fun hh => Distinct.rf hd hxm he hh.symm)
          have hs := settle_perm id q
          simp only [removedBy, hff.1, hrr, List.map_nil, List.append_nil, List.map_cons] at hs
          refine List.Perm.trans ?_ hs
          simp only [Q.cores, settle, List.map_append, List.map_cons, List.map_nil, List.append_assoc]
          exact List.Perm.refl _
        · exact List.Perm.refl _
  | tick now now' =>
    simp only [step, removedBy, addedBy, List.append_nil]
    split
    · simp only [expire, Q.cores]
      refine (((lineUp_fold_perm _ q.ready).map Item.core).append_right _).trans ?_
      simp only [List.map_append, List.append_assoc, List.map_map]
      refine List.Perm.append_left _ ?_
      have h1 := filter_split q.flight (fun e => decide (e.1 ≤ now')) (fun e => e.2.core)
      have h2 := filter_split ((q.flight.filter (fun e => decide (e.1 ≤ now'))).map (·.2)) (fun x => decide (mr ≤ x.attempts)) Item.core
      have e1 : (fun e : Nat × Item => !decide (e.1 ≤ now')) = (fun e => decide (now' < e.1)) := by
        funext y; by_cases h : y.1 ≤ now'
        · simp [h, Nat.not_lt.2 h]
        · simp [h, Nat.not_le.1 h]
      have e2 : (fun x : Item => !decide (mr ≤ x.attempts)) = (fun x => decide (x.attempts < mr)) := by
        funext y; by_cases h : mr ≤ y.attempts
        · simp [h, Nat.not_lt.2 h]
        · simp [h, Nat.not_le.1 h]
      simp only [e1] at h1
      simp only [e2] at h2
      have h3 : (List.map (fun e : Nat × Item => e.2.core) (List.filter (fun e => decide (e.1 ≤ now')) q.flight)) =
          List.map Item.core (List.map (·.2) (List.filter (fun e => decide (e.1 ≤ now')) q.flight)) := by
        rw [List.map_map]; rfl
      rw [h3] at h1
      have h4 : ∀ l : List Item, List.map ((fun d : Dead => d.item.core) ∘ fun x => ⟨x, now', tr⟩) l = l.map Item.core := fun l => rfl
      rw [h4]
      generalize List.map Item.core (List.filter (fun x => decide (x.attempts < mr)) (List.map (·.2) (List.filter (fun e => decide (e.1 ≤ now')) q.flight))) = A at *
      generalize List.map Item.core (List.filter (fun x => decide (mr ≤ x.attempts)) (List.map (·.2) (List.filter (fun e => decide (e.1 ≤ now')) q.flight))) = B at *
      generalize List.map (fun e : Nat × Item => e.2.core) (List.filter (fun e => decide (now' < e.1)) q.flight) = C at *
      generalize List.map (fun d : Dead => d.item.core) q.dead = D
      -- A ++ (C ++ (D ++ B)) ~ flight ++ D
      refine List.Perm.trans ?_ ((h1.symm.symm).append_right D)
      refine List.Perm.trans ?_ (((List.Perm.append_left C h2)).append_right D)
      -- C ++ (A ++ B) ++ D
      rw [List.append_assoc C, ← List.append_assoc A C]
      refine List.Perm.trans (List.Perm.append_right _ List.perm_append_comm) ?_
      simp only [List.append_assoc]
      refine List.Perm.append_left _ (List.Perm.append_left _ List.perm_append_comm)
    · exact List.Perm.refl _
  | peekDlq limit offset => simp [step, removedBy, addedBy]
  | moveToQueue id =>
    simp only [step, removedBy, addedBy, List.append_nil, replay]
    cases hl : lookupDead id q with
    | none => simp
    | some d =>
      simp only [Q.cores]
      have hdm := List.mem_of_find?_eq_some hl
      have hdi : d.item.id = id := by simpa using List.find?_some hl
      have hdd : q.dead.filter (fun y => decide (y.item.id = id)) = [d] := by
        have := filter_eq_of_nodup (k := fun d : Dead => d.item.id) (Distinct.dead hd) hdm
        simpa only [hdi] using this
      have h1 := filter_split q.dead (fun d => decide (d.item.id = id)) (fun d => d.item.core)
      simp only [not_decide_ne, hdd, List.map_cons, List.map_nil] at h1
      refine (((lineUp_perm _ q.ready).map Item.core).append_right _).trans ?_
      simp only [List.map_cons, List.cons_append]
      refine List.Perm.trans ?_ (List.Perm.append_left _ (List.Perm.append_left _ h1))
      rw [← List.append_assoc, ← List.append_assoc, ← List.append_assoc]
      exact (List.perm_append_singleton _ _).symm
  | deleteDlq id =>
    simp only [step, removedBy, addedBy, List.append_nil, discard]
    have h1 := filter_split q.dead (fun d => decide (d.item.id = id)) (fun d => d.item.core)
    simp only [not_decide_ne] at h1
    cases hl : lookupDead id q with
    | none =>
      have hn : ∀ d ∈ q.dead, d.item.id ≠ id := by
        intro d hdm
        have := List.find?_eq_none.1 hl d hdm
        simpa using this
      have := filter_none (k := fun d : Dead => d.item.id) hn
      simp [this.1]
    | some d =>
      simp only [Q.cores, List.append_assoc]
      exact List.Perm.append_left _ (List.Perm.append_left _ h1)
  | purgeDlq =>
    simp [step, removedBy, addedBy, Q.cores]
  | counters => simp [step, removedBy, addedBy]

theorem Distinct.step {vt mr : Nat} {tr : Str} {q : Q} (hd : q.Distinct) (op : Req)
    (hf : ∀ c ∈ addedBy op, c.1 ∉ q.ids) : (step vt mr tr q op).1.Distinct := by
  have h := (step_perm (vt := vt) (mr := mr) (tr := tr) hd op).map (·.1)
  simp only [List.map_append] at h
  have hn : (q.cores.map (·.1) ++ (addedBy op).map (·.1)).Nodup := by
    rw [List.nodup_append]
    refine ⟨hd, ?_, ?_⟩
    · cases op <;> simp [addedBy]
    · intro a ha b hb hab
      obtain ⟨c, hc, rfl⟩ := List.mem_map.1 hb
      exact hf c hc (hab ▸ ha)
  exact (List.nodup_append.1 (h.nodup_iff.2 hn)).1

/-- Ids present after a request were present before or are being added. -/
theorem ids_step {vt mr : Nat} {tr : Str} {q : Q} (hd : q.Distinct) (op : Req) {id : Nat}
    (h : id ∈ (step vt mr tr q op).1.ids) : id ∈ q.ids ∨ id ∈ (addedBy op).map (·.1) := by
  have hp := (step_perm (vt := vt) (mr := mr) (tr := tr) hd op).map (·.1)
  simp only [List.map_append] at hp
  have := hp.mem_iff.1 (List.mem_append_left _ h)
  exact List.mem_append.1 this

theorem serve_delivered (due : Nat) (q : Q) :
    (serve due q).1.toList.map (·.id) = (q.ready.take 1).map (·.id) := by
  unfold serve
  cases h : q.ready with
  | nil => rfl
  | cons x t => simp [Item.bump]

/-- A batch is the front of the line. -/
theorem serveN_eq (due : Nat) : ∀ (n : Nat) (q : Q),
    (serveN due n q).1 = (q.ready.take n).map Item.bump ∧ (serveN due n q).2.ready = q.ready.drop n ∧
    (serveN due n q).2.dead = q.dead ∧
    (serveN due n q).2.flight = (q.ready.take n).foldl (fun l x => file due x.bump l) q.flight := by
  intro n
  induction n with
  | zero => intro q; simp [serveN]
  | succ n ih =>
    intro q
    simp only [serveN, serve]
    cases h : q.ready with
    | nil => simp [h]
    | cons x t =>
      simp only
      obtain ⟨h1, h2, h3, h4⟩ := ih { q with ready := t, flight := file due x.bump q.flight }
      refine ⟨?_, ?_, ?_, ?_⟩
      · rw [h1]; simp
      · rw [h2]; simp
      · rw [h3]
      · rw [h4]; simp

theorem serve_eq_serveN (due : Nat) (q : Q) : (serve due q).2 = (serveN due 1 q).2 ∧ (serve due q).1.toList = (serveN due 1 q).1 := by
  simp only [serveN]
  cases h : serve due q with
  | mk o q' => cases o <;> simp

/-- Only waiting messages are handed out. -/
theorem delivered_mem {vt mr : Nat} {tr : Str} {q : Q} (op : Req) {id : Nat}
    (h : id ∈ (step vt mr tr q op).2.delivered) : id ∈ q.ready.map (·.id) := by
  have key : ∀ n due, id ∈ ((serveN due n q).1).map (·.id) → id ∈ q.ready.map (·.id) := by
    intro n due h
    rw [(serveN_eq due n q).1, List.map_map] at h
    obtain ⟨x, hx, hxi⟩ := List.mem_map.1 h
    exact List.mem_map.2 ⟨x, List.mem_of_mem_take hx, hxi⟩
  cases op with
  | pop now =>
    simp only [step, Ans.delivered] at h
    rw [(serve_eq_serveN _ q).2] at h
    exact key _ _ h
  | consume max now => exact key _ _ h
  | _ => simp [step, Ans.delivered] at h

theorem delivered_nodup {vt mr : Nat} {tr : Str} {q : Q} (hd : q.Distinct) (op : Req) :
    (step vt mr tr q op).2.delivered.Nodup := by
  have key : ∀ n due, (((serveN due n q).1).map (·.id)).Nodup := by
    intro n due
    rw [(serveN_eq due n q).1, List.map_map]
    exact ((List.take_sublist n q.ready).map _).nodup (Distinct.ready hd)
  cases op with
  | pop now => simp only [step, Ans.delivered]; rw [(serve_eq_serveN _ q).2]; exact key _ _
  | consume max now => exact key _ _
  | _ => simp [step, Ans.delivered]

theorem mem_file_fold {due : Nat} : ∀ (l : List Item) (fl : List (Nat × Item)) (e : Nat × Item),
    e ∈ l.foldl (fun l x => file due x.bump l) fl ↔ e ∈ fl ∨ ∃ x ∈ l, e = (due, x.bump) := by
  intro l
  induction l with
  | nil => intro fl e; simp
  | cons x l ih =>
    intro fl e
    simp only [List.foldl_cons, ih, mem_file, List.mem_cons]
    constructor
    · rintro ((h | h) | ⟨y, hy, h⟩)
      · exact Or.inr ⟨x, Or.inl rfl, h⟩
      · exact Or.inl h
      · exact Or.inr ⟨y, Or.inr hy, h⟩
    · rintro (h | ⟨y, hy, h⟩)
      · exact Or.inl (Or.inr h)
      · rcases hy with rfl | hy
        · exact Or.inl (Or.inl h)
        · exact Or.inr ⟨y, hy, h⟩

/-! ## Exclusive visibility -/

/-- The request can make a message handed out until `due` available again. -/
def releases (id due : Nat) : Req → Prop
  | .nack i _ _ => i = id
  | .tick _ now' => due ≤ now'
  | _ => False

/-- The message is handed out until `due`, or gone. -/
def Held (id due : Nat) (q : Q) : Prop := (∃ x, (due, x) ∈ q.flight ∧ x.id = id) ∨ id ∉ q.ids

theorem mem_ids_flight {q : Q} {e : Nat × Item} (h : e ∈ q.flight) : e.2.id ∈ q.ids := by
  rw [ids_eq]; exact List.mem_append_right _ (List.mem_append_left _ (List.mem_map.2 ⟨e, h, rfl⟩))

theorem mem_ids_ready {q : Q} {x : Item} (h : x ∈ q.ready) : x.id ∈ q.ids := by
  rw [ids_eq]; exact List.mem_append_left _ (List.mem_map.2 ⟨x, h, rfl⟩)

theorem mem_ids_dead {q : Q} {d : Dead} (h : d ∈ q.dead) : d.item.id ∈ q.ids := by
  rw [ids_eq]; exact List.mem_append_right _ (List.mem_append_right _ (List.mem_map.2 ⟨d, h, rfl⟩))

theorem Held.step {vt mr : Nat} {tr : Str} {q : Q} {id due : Nat} (hd : q.Distinct) (h : Held id due q) (op : Req)
    (hr : ¬ releases id due op) (hf : id ∉ (addedBy op).map (·.1)) :
    Held id due (step vt mr tr q op).1 ∧ id ∉ (step vt mr tr q op).2.delivered := by
  refine ⟨?_, ?_⟩
  · rcases h with ⟨x, hx, hxi⟩ | h
    · subst hxi
      cases op with
      | push _ _ _ _ => exact Or.inl ⟨x, hx, rfl⟩
      | pop now =>
        left
        refine ⟨x, ?_, rfl⟩
        simp only [Queue.step]
        rw [(serve_eq_serveN _ q).1, (serveN_eq _ _ q).2.2.2, mem_file_fold]
        exact Or.inl hx
      | consume max now =>
        left
        refine ⟨x, ?_, rfl⟩
        simp only [Queue.step]
        rw [(serveN_eq _ _ q).2.2.2, mem_file_fold]
        exact Or.inl hx
      | ack i =>
        by_cases hi : i = x.id
        · right
          subst hi
          rw [ids_eq]
          simp only [Queue.step, settle, List.mem_append, List.mem_map, not_or, not_exists, not_and]
          refine ⟨?_, ?_, ?_⟩
          · intro y hy; simpa [dropReady] using (List.mem_filter.1 hy).2
          · intro y hy; simpa [dropFlight] using (List.mem_filter.1 hy).2
          · intro y hy hh; exact Distinct.fd hd hx hy hh.symm
        · left
          exact ⟨x, List.mem_filter.2 ⟨hx, by simpa using fun hh => hi hh.symm⟩, rfl⟩
      | nack i reason now =>
        have hi : i ≠ x.id := hr
        left
        refine ⟨x, ?_, rfl⟩
        have hdf : (due, x) ∈ dropFlight i q.flight := List.mem_filter.2 ⟨hx, by simpa using fun hh => hi hh.symm⟩
        simp only [Queue.step, fail]
        cases lookupFlight i q with
        | some y =>
          simp only
          split <;> exact hdf
        | none =>
          simp only
          cases lookupReady i q with
          | some y =>
            simp only
            split
            · exact hdf
            · exact hx
          | none => exact hx
      | tick now now' =>
        left
        refine ⟨x, ?_, rfl⟩
        simp only [Queue.step]
        split
        · refine List.mem_filter.2 ⟨hx, ?_⟩
          simp only [decide_eq_true_eq]
          exact Nat.not_le.1 hr
        · exact hx
      | peekDlq _ _ => exact Or.inl ⟨x, hx, rfl⟩
      | moveToQueue i =>
        left
        refine ⟨x, ?_, rfl⟩
        simp only [Queue.step, replay]
        cases lookupDead i q <;> exact hx
      | deleteDlq i =>
        left
        refine ⟨x, ?_, rfl⟩
        simp only [Queue.step, discard]
        cases lookupDead i q <;> exact hx
      | purgeDlq => exact Or.inl ⟨x, hx, rfl⟩
      | counters => exact Or.inl ⟨x, hx, rfl⟩
    · right
      intro hid
      rcases ids_step hd op hid with h' | h'
      · exact h h'
      · exact hf h'
  · intro hdel
    have hm := delivered_mem op hdel
    obtain ⟨y, hy, hyi⟩ := List.mem_map.1 hm
    rcases h with ⟨x, hx, hxi⟩ | h
    · exact Distinct.rf hd hy hx (hyi.trans hxi.symm)
    · exact h (hyi ▸ mem_ids_ready hy)

/-- Right after a delivery the message is held. -/
theorem delivered_held {vt mr : Nat} {tr : Str} {q : Q} (op : Req) {id now : Nat}
    (hop : op = .pop now ∨ ∃ n, op = .consume n now) (h : id ∈ (step vt mr tr q op).2.delivered) :
    Held id (now + vt) (step vt mr tr q op).1 := by
  have key : ∀ n, id ∈ ((serveN (now + vt) n q).1).map (·.id) → Held id (now + vt) (serveN (now + vt) n q).2 := by
    intro n h
    rw [(serveN_eq _ n q).1, List.map_map] at h
    obtain ⟨x, hx, hxi⟩ := List.mem_map.1 h
    left
    refine ⟨x.bump, ?_, hxi⟩
    rw [(serveN_eq _ n q).2.2.2, mem_file_fold]
    exact Or.inr ⟨x, hx, rfl⟩
  rcases hop with rfl | ⟨n, rfl⟩
  · simp only [step, Ans.delivered] at h ⊢
    rw [(serve_eq_serveN _ q).2] at h
    rw [(serve_eq_serveN _ q).1]
    exact key 1 h
  · exact key n h

/-! ## Bounded deliveries -/

/-- Sum of the weights of the items called `id`. -/
def weigh (w : Item → Nat) (id : Nat) (l : List Item) : Nat := ((l.filter (fun x => x.id = id)).map w).sum

theorem weigh_append (w : Item → Nat) (id : Nat) (l l' : List Item) : weigh w id (l ++ l') = weigh w id l + weigh w id l' := by
  simp [weigh]

theorem weigh_cons (w : Item → Nat) (id : Nat) (x : Item) (l : List Item) :
    weigh w id (x :: l) = (if x.id = id then w x else 0) + weigh w id l := by
  unfold weigh
  rw [List.filter_cons]
  by_cases h : x.id = id <;> simp [h]

theorem weigh_nil (w : Item → Nat) (id : Nat) : weigh w id [] = 0 := rfl

theorem weigh_perm {w : Item → Nat} {id : Nat} {l l' : List Item} (h : l.Perm l') : weigh w id l = weigh w id l' := by
  unfold weigh
  exact ((h.filter _).map _).sum_nat

theorem weigh_filter (w : Item → Nat) (id : Nat) (p : Item → Bool) (l : List Item) : weigh w id (l.filter p) ≤ weigh w id l := by
  induction l with
  | nil => simp
  | cons x l ih =>
    rw [List.filter_cons, weigh_cons]
    split
    · rw [weigh_cons]; omega
    · omega

theorem weigh_le {w w' : Item → Nat} {id : Nat} {l : List Item} (h : ∀ x ∈ l, w x ≤ w' x) : weigh w id l ≤ weigh w' id l := by
  induction l with
  | nil => simp [weigh_nil]
  | cons x l ih =>
    rw [weigh_cons, weigh_cons]
    have := ih (fun y hy => h y (List.mem_cons_of_mem _ hy))
    have := h x (List.mem_cons_self ..)
    split <;> omega

/-- Deliveries left for a waiting message, and for one handed out. -/
def leftR (mr : Nat) (x : Item) : Nat := max 1 (mr - x.attempts)
def leftF (mr : Nat) (x : Item) : Nat := mr - x.attempts

/-- Deliveries left for `id`. -/
def budget (mr id : Nat) (q : Q) : Nat := weigh (leftR mr) id q.ready + weigh (leftF mr) id (q.flight.map (·.2))

theorem budget_settle (mr i id : Nat) (q : Q) : budget mr id (settle i q) ≤ budget mr id q := by
  simp only [budget, settle, dropReady, dropFlight]
  have h1 := weigh_filter (leftR mr) id (fun x => decide (x.id ≠ i)) q.ready
  have h2 := weigh_filter (leftF mr) id (fun x => decide (x.id ≠ i)) (q.flight.map (·.2))
  rw [List.filter_map] at h2
  exact Nat.add_le_add h1 h2

theorem budget_serve {mr id due : Nat} {q : Q} :
    ((serve due q).1.toList.map (·.id)).count id + budget mr id (serve due q).2 ≤ budget mr id q := by
  unfold serve
  cases h : q.ready with
  | nil => simp
  | cons x t =>
    simp only [budget, h, Option.toList_some, List.map_cons, List.map_nil, weigh_cons]
    rw [weigh_perm ((file_perm due x.bump q.flight).map (·.2))]
    simp only [List.map_cons, weigh_cons]
    have : x.bump.id = x.id := rfl
    have h2 : x.bump.attempts = x.attempts + 1 := rfl
    simp only [this, leftR, leftF, h2]
    by_cases hi : x.id = id
    · simp [hi]; omega
    · simp [hi]

theorem budget_serveN {mr id due : Nat} : ∀ (n : Nat) {q : Q},
    ((serveN due n q).1.map (·.id)).count id + budget mr id (serveN due n q).2 ≤ budget mr id q := by
  intro n
  induction n with
  | zero => intro q; simp [serveN]
  | succ n ih =>
    intro q
    have h1 := budget_serve (mr := mr) (id := id) (due := due) (q := q)
    simp only [serveN]
    rcases hs : serve due q with ⟨o, q'⟩
    rw [hs] at h1
    cases o with
    | none => simp only [Option.toList_none, List.map_nil, List.count_nil] at h1 ⊢; exact h1
    | some x =>
      have i1 := ih (q := q')
      simp only [Option.toList_some, List.map_cons, List.map_nil, List.count_cons, List.count_nil] at h1 i1 ⊢
      omega

theorem budget_step {vt mr id : Nat} {tr : Str} {q : Q} (op : Req) (hm : op ≠ .moveToQueue id) :
    (step vt mr tr q op).2.delivered.count id + budget mr id (step vt mr tr q op).1 ≤
      budget mr id q + max 1 mr * ((addedBy op).map (·.1)).count id := by
  cases op with
  | push i payload priority now =>
    simp only [step, Ans.delivered, addedBy, List.count_nil, budget]
    rw [weigh_perm (lineUp_perm _ q.ready), weigh_cons]
    by_cases hi : i = id
    · simp [hi, leftR]; omega
    · simp [hi]
  | pop now =>
    simp only [step, Ans.delivered, addedBy, List.map_nil, List.count_nil, Nat.mul_zero, Nat.add_zero]
    exact budget_serve
  | consume n now =>
    simp only [step, Ans.delivered, addedBy, List.map_nil, List.count_nil, Nat.mul_zero, Nat.add_zero]
    exact budget_serveN n
  | ack i =>
    simp only [step, Ans.delivered, addedBy, List.map_nil, List.count_nil, Nat.mul_zero, Nat.add_zero, Nat.zero_add]
    exact budget_settle _ _ _ q
  | nack i reason now =>
    simp only [step, Ans.delivered, addedBy, List.map_nil, List.count_nil, Nat.mul_zero, Nat.add_zero, Nat.zero_add, fail]
    cases hf : lookupFlight i q with
    | some x =>
      obtain ⟨e, he, hex⟩ := Option.map_eq_some_iff.1 hf
      subst hex
      have hem := List.mem_of_find?_eq_some he
      have hei : e.2.id = i := by simpa using List.find?_some he
      simp only
      split
      · exact budget_settle _ _ _ q
      · next hlt =>
        simp only [budget, settle]
        rw [weigh_perm (lineUp_perm _ q.ready), weigh_cons]
        have h1 := weigh_perm (w := leftF mr) (id := id)
          ((List.filter_append_perm (fun y : Nat × Item => decide (y.2.id = i)) q.flight).map (·.2))
        have h2 : weigh (leftF mr) id [e.2] ≤ weigh (leftF mr) id ((q.flight.filter (fun y => decide (y.2.id = i))).map (·.2)) := by
          have hm' : e.2 ∈ (q.flight.filter (fun y => decide (y.2.id = i))).map (·.2) :=
            List.mem_map.2 ⟨e, List.mem_filter.2 ⟨hem, by simpa using hei⟩, rfl⟩
          obtain ⟨a, c, hac⟩ := List.append_of_mem hm'
          rw [hac]
          simp only [weigh_append, weigh_cons, weigh_nil]
          omega
        simp only [not_decide_ne] at h1
        simp only [List.map_append, weigh_append] at h1
        simp only [weigh_cons, weigh_nil] at h2
        simp only [dropFlight]
        have h3 : leftR mr e.2 = leftF mr e.2 := by simp only [leftR, leftF]; omega
        rw [h3]
        omega
    | none =>
      simp only
      cases lookupReady i q with
      | some x =>
        simp only
        split
        · exact budget_settle _ _ _ q
        · exact Nat.le_refl _
      | none => exact Nat.le_refl _
  | tick now now' =>
    simp only [step, Ans.delivered, addedBy, List.map_nil, List.count_nil, Nat.mul_zero, Nat.add_zero, Nat.zero_add]
    split
    · simp only [expire, budget]
      rw [weigh_perm (lineUp_fold_perm _ q.ready), weigh_append]
      have h1 := weigh_perm (w := leftF mr) (id := id)
          ((List.filter_append_perm (fun y : Nat × Item => decide (y.1 ≤ now')) q.flight).map (·.2))
      have e1 : (fun e : Nat × Item => !decide (e.1 ≤ now')) = (fun e => decide (now' < e.1)) := by
        funext y; by_cases h : y.1 ≤ now'
        · simp [h, Nat.not_lt.2 h]
        · simp [h, Nat.not_le.1 h]
      simp only [e1, List.map_append, weigh_append] at h1
      have h2 := weigh_filter (leftF mr) id (fun x => decide (x.attempts < mr))
        ((q.flight.filter (fun y => decide (y.1 ≤ now'))).map (·.2))
      have h3 := weigh_le (w := leftR mr) (w' := leftF mr) (id := id) (l := ((q.flight.filter (fun y => decide (y.1 ≤ now'))).map (·.2)).filter (fun x => decide (x.attempts < mr))) (by
        intro x hx
        have := (List.mem_filter.1 hx).2
        simp only [decide_eq_true_eq] at this
        simp only [leftR, leftF]; omega)
      omega
    · exact Nat.le_refl _
  | peekDlq limit offset => simp [step, Ans.delivered, addedBy]
  | moveToQueue i =>
    simp only [step, Ans.delivered, addedBy, List.map_nil, List.count_nil, Nat.mul_zero, Nat.add_zero, Nat.zero_add, replay]
    cases hl : lookupDead i q with
    | none => exact Nat.le_refl _
    | some d =>
      have hdi : d.item.id = i := by simpa using List.find?_some hl
      have hne : i ≠ id := fun hh => hm (by rw [hh])
      simp only [budget]
      rw [weigh_perm (lineUp_perm _ q.ready), weigh_cons]
      simp [hdi, hne]
  | deleteDlq i =>
    simp only [step, Ans.delivered, addedBy, List.map_nil, List.count_nil, Nat.mul_zero, Nat.add_zero, Nat.zero_add, discard]
    cases lookupDead i q <;> exact Nat.le_refl _
  | purgeDlq => simp [step, Ans.delivered, addedBy, budget]
  | counters => simp [step, Ans.delivered, addedBy]

theorem weigh_zero {w : Item → Nat} {id : Nat} {l : List Item} (h : id ∉ l.map (·.id)) : weigh w id l = 0 := by
  unfold weigh
  have : l.filter (fun x => decide (x.id = id)) = [] := by
    rw [List.filter_eq_nil_iff]
    intro x hx hh
    exact h (List.mem_map.2 ⟨x, hx, by simpa using hh⟩)
  rw [this]; rfl

theorem budget_zero {mr id : Nat} {q : Q} (hd : id ∉ q.ids) : budget mr id q = 0 := by
  rw [ids_eq] at hd
  unfold budget
  rw [weigh_zero (fun h => hd (List.mem_append_left _ h)), weigh_zero (fun h => hd (List.mem_append_right _ (List.mem_append_left _ (by simpa using h))))]

theorem budget_le {mr id : Nat} {q : Q} (hd : q.Distinct) : budget mr id q ≤ max 1 mr := by
  unfold budget
  unfold Q.Distinct at hd
  rw [ids_eq] at hd
  have h2 := List.nodup_append.1 hd
  by_cases hr : id ∈ q.ready.map (·.id)
  · have hf : id ∉ (q.flight.map (·.2)).map (·.id) := fun hh =>
      h2.2.2 id hr id (List.mem_append_left _ (by simpa using hh)) rfl
    rw [weigh_zero hf]
    obtain ⟨x, hx, rfl⟩ := List.mem_map.1 hr
    unfold weigh
    rw [filter_eq_of_nodup (k := Item.id) h2.1 hx]
    simp [leftR]; omega
  · rw [weigh_zero hr]
    by_cases hf : id ∈ (q.flight.map (·.2)).map (·.id)
    · obtain ⟨x, hx, rfl⟩ := List.mem_map.1 hf
      have : ((q.flight.map (·.2)).map (·.id)).Nodup := by
        have := (List.nodup_append.1 h2.2.1).1
        rw [List.map_map]; exact this
      unfold weigh
      rw [filter_eq_of_nodup (k := Item.id) this hx]
      simp [leftF]; omega
    · rw [weigh_zero hf]; omega

end Verif.Spec.Queue
