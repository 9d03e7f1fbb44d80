import Verif.Model.DashboardWalk
import Verif.Spec.DashboardWalk
import Verif.Props.DashboardPages
import Verif.Proofs.QueueView
import Verif.Proofs.QueueHist
import Verif.Proofs.QueueLives

/-! # Pages of a queue that grows (C133) -/

namespace Verif.Dashboard

open Verif Verif.Queue

/-- In a longer list everything is at the same place or later. -/
theorem idxOf_sublist {l m : List Nat} (h : l.Sublist m) (hn : m.Nodup) {x : Nat} (hx : x ∈ l) : l.idxOf x ≤ m.idxOf x := by
  induction h with
  | slnil => cases hx
  | @cons l m a hs ih =>
    have hn := List.nodup_cons.1 hn
    have hne : a ≠ x := fun e => hn.1 (e ▸ hs.subset hx)
    have := ih hn.2 hx
    have hb : (a == x) = false := by simpa using hne
    rw [List.idxOf_cons, hb]
    simp only [cond_false]
    omega
  | @cons_cons l m a hs ih =>
    have hn := List.nodup_cons.1 hn
    by_cases ha : a = x
    · subst ha; simp
    · have hx' : x ∈ l := by
        rcases List.mem_cons.1 hx with h | h
        · exact absurd h.symm ha
        · exact h
      have hb : (a == x) = false := by simpa using ha
      rw [List.idxOf_cons, List.idxOf_cons, hb]
      simp only [cond_false]
      have := ih hn.2 hx'
      omega

theorem flat_bentry (id : Nat) : ∀ (ix : Index) (p : Nat), id ∉ flat ix → (flat ix).Sublist (flat (bentry (fun q => lhsInsert q id) ix p)) := by
  intro ix
  induction ix with
  | nil => intro p _; exact List.nil_sublist _
  | cons e t ih =>
    obtain ⟨k, q⟩ := e
    intro p hn
    have hn1 : id ∉ q := fun h => hn (by simp [flat]; exact .inl h)
    have hn2 : id ∉ flat t := fun h => hn (by simp only [flat, List.flatMap_cons, List.mem_append]; exact .inr h)
    simp only [bentry]
    split
    · simp only [flat, List.flatMap_cons]; exact List.sublist_append_right _ _
    split
    · simp only [flat, List.flatMap_cons]
      refine List.Sublist.append ?_ (List.Sublist.refl _)
      have : q.filter (· ≠ id) = q := List.filter_eq_self.2 (fun x hx => by
        have : x ≠ id := fun e => hn1 (e ▸ hx)
        simpa using this)
      simp only [lhsInsert, this]
      exact List.sublist_append_left _ _
    · simp only [flat, List.flatMap_cons]
      exact (List.Sublist.refl _).append (ih p hn2)

theorem waiting_ids {q : QInner} {a : Spec.Queue.Q} {used : Id → Prop} (h : RQ q a used) : (waiting q).map (·.id) = flat q.state.disp := by
  rw [waiting_eq]
  have hin : ∀ id ∈ flat q.state.disp, ∃ m, mget q.state.registry id = some m ∧ m.id = id := by
    intro id hid
    have h1 := mem_revFlat.2 hid
    rw [RS.idr h.st] at h1
    obtain ⟨x, hx, rfl⟩ := List.mem_map.1 h1
    obtain ⟨m, hm, _⟩ := RS.cr h.st x hx
    exact ⟨m, hm, (RS.comp h.st _ m hm).1⟩
  generalize flat q.state.disp = l at hin
  induction l with
  | nil => rfl
  | cons i l ih =>
    obtain ⟨m, hm, hi⟩ := hin i (by simp)
    rw [List.filterMap_cons, hm]
    simp only [List.map_cons, hi]
    rw [ih (fun j hj => hin j (List.mem_cons_of_mem _ hj))]

theorem flat_bremove_sub {ix : Index} (hs : BSorted ix) (k id : Nat) : (flat (bremove ix k id)).Sublist (flat ix) := by
  rw [bremove_eq hs]
  clear hs
  induction ix with
  | nil => exact List.Sublist.refl _
  | cons e t ih =>
    have h1 : (if e.1 = k then (e.1, e.2.filter (· ≠ id)) else e).2.Sublist e.2 := by
      split
      · exact List.filter_sublist
      · exact List.Sublist.refl _
    rw [List.map_cons, List.filter_cons]
    generalize (if e.1 = k then (e.1, e.2.filter (· ≠ id)) else e) = e' at h1
    split
    · simp only [flat, List.flatMap_cons]
      exact h1.append ih
    · simp only [flat, List.flatMap_cons]
      exact ih.trans (List.sublist_append_right _ _)

/-- The waiting messages after: the same ones, or fewer. -/
def Less (s s' : QState) : Prop := BSorted s.disp → BSorted s'.disp ∧ (flat s'.disp).Sublist (flat s.disp)

theorem Less.same {s s' : QState} (h : s'.disp = s.disp) : Less s s' := fun hs => by rw [h]; exact ⟨hs, List.Sublist.refl _⟩

theorem Less.rem {s s' : QState} {k id : Nat} (h : s'.disp = bremove s.disp k id) : Less s s' :=
  fun hs => by rw [h]; exact ⟨hs.bremove _ _, flat_bremove_sub hs _ _⟩

theorem Less.trans {s s' s'' : QState} (h : Less s s') (h' : Less s' s'') : Less s s'' :=
  fun hs => ⟨(h' (h hs).1).1, (h' (h hs).1).2.trans (h hs).2⟩

theorem removeFromIndex_less (s : QState) (st : MsgState) (id : Id) (p : Nat) : Less s (s.removeFromIndex st id p) := by
  cases st with
  | ready => exact Less.rem rfl
  | inFlight ts => exact Less.same rfl

theorem deleteMessage_less (s : QState) (id : Id) : Less s (s.deleteMessage id).2 := by
  unfold QState.deleteMessage
  cases mget s.registry id with
  | none => exact Less.same rfl
  | some m => exact (Less.same (s' := { s with registry := mdel s.registry id }) rfl).trans (removeFromIndex_less _ _ _ _)

theorem transition_less (s : QState) (id : Id) (ts : Nat) : Less s (s.transitionTo id (.inFlight ts)).2 := by
  unfold QState.transitionTo
  cases mget s.registry id with
  | none => exact Less.same rfl
  | some m =>
    dsimp only
    split
    · exact Less.same rfl
    · exact (removeFromIndex_less s m.state id m.priority).trans (Less.same rfl)

theorem popSingle_less (s : QState) (now vt : Nat) : Less s (s.popSingle now vt).2.2 := by
  unfold QState.popSingle
  cases s.nextId with
  | none => exact Less.same rfl
  | some id =>
    dsimp only
    have h := transition_less s id (now + vt)
    generalize (s.transitionTo id (.inFlight (now + vt))).2 = s1 at h ⊢
    cases mget s1.registry id with
    | none => exact h
    | some m => exact h.trans (Less.same rfl)

theorem takeBatch_less (now vt : Nat) : ∀ (n : Nat) (s : QState), Less s (QState.takeBatch now vt n s).2.2 := by
  intro n
  induction n with
  | zero => intro s; exact Less.same rfl
  | succ n ih =>
    intro s
    have h := popSingle_less s now vt
    unfold QState.takeBatch
    generalize s.popSingle now vt = r at h ⊢
    obtain ⟨m, e, s1⟩ := r
    cases m with
    | none => exact h
    | some m => exact h.trans (ih s1)

/-- Without the ids of `ids`, the waiting messages before are among those after, in the same order. -/
def More (ids : List Nat) (s s' : QState) : Prop := ((flat s.disp).filter (fun i => !ids.contains i)).Sublist (flat s'.disp)

theorem More.same {ids : List Nat} {s s' : QState} (h : s'.disp = s.disp) : More ids s s' := by
  unfold More; rw [h]; exact List.filter_sublist

theorem bentry_more (id : Nat) : ∀ (ix : Index) (p : Nat),
    ((flat ix).filter (· ≠ id)).Sublist (flat (bentry (fun q => lhsInsert q id) ix p)) := by
  intro ix
  induction ix with
  | nil => intro p; exact List.nil_sublist _
  | cons e t ih =>
    obtain ⟨k, q⟩ := e
    intro p
    simp only [bentry]
    split
    · simp only [flat, List.flatMap_cons]; exact List.filter_sublist.trans (List.sublist_append_right _ _)
    split
    · simp only [flat, List.flatMap_cons, List.filter_append]
      exact (List.sublist_append_left _ _).append List.filter_sublist
    · simp only [flat, List.flatMap_cons, List.filter_append]
      exact List.filter_sublist.append (ih p)

theorem transition_more (s : QState) (id : Id) : More [id] s (s.transitionTo id .ready).2 := by
  unfold QState.transitionTo
  cases mget s.registry id with
  | none => exact More.same rfl
  | some m =>
    dsimp only
    split
    · exact More.same rfl
    · rename_i hne
      cases hst : m.state with
      | ready => exact absurd hst hne
      | inFlight ts =>
        show ((flat s.disp).filter (fun i => ![id].contains i)).Sublist (flat (bentry (fun q => lhsInsert q id) s.disp m.priority))
        have he : (fun i => ![id].contains i) = (fun i : Nat => decide (i ≠ id)) := by
          funext i; by_cases h : i = id <;> simp [h]
        rw [he]
        exact bentry_more id _ _

theorem requeueOne_more (s : QState) (id : Id) : More [id] s (s.requeueOne id).2 := by
  have h := transition_more s id
  unfold QState.requeueOne
  generalize s.transitionTo id .ready = r at h ⊢
  obtain ⟨b, s1⟩ := r
  cases b <;> exact h

theorem requeueAll_more : ∀ (ids : List Id) (s : QState), More ids s (QState.requeueAll ids s).2 := by
  intro ids
  induction ids with
  | nil => intro s; exact More.same rfl
  | cons id t ih =>
    intro s
    have h1 := requeueOne_more s id
    have h2 := ih (s.requeueOne id).2
    show More (id :: t) s (QState.requeueAll t (s.requeueOne id).2).2
    refine List.Sublist.trans ?_ h2
    have h3 := h1.filter (fun i => !t.contains i)
    rw [List.filter_filter] at h3
    have he : (fun i => !(id :: t).contains i) = (fun i : Nat => (!t.contains i) && (![id].contains i)) := by
      funext i
      by_cases h : i = id <;> by_cases h' : t.contains i = true <;> simp [h]
    rw [he]
    exact h3

theorem expireAll_disp (now : Nat) : ∀ (ids : List Id) (s : QState), (QState.expireAll now ids s).2.disp = s.disp := by
  intro ids
  induction ids with
  | nil => intro s; rfl
  | cons id t ih =>
    intro s
    show (QState.expireAll now t (s.expireOne id now).2).2.disp = s.disp
    rw [ih]
    unfold QState.expireOne
    cases mget s.registry id with
    | none => rfl
    | some m => cases hst : m.state <;> simp [hst]

theorem filter_none {ids l : List Nat} (h : ∀ i ∈ ids, i ∉ l) : l.filter (fun i => !ids.contains i) = l :=
  List.filter_eq_self.2 (fun i hi => by
    have : i ∉ ids := fun hc => h i hc hi
    simpa using this)

theorem flat_ready {q : QInner} {a : Spec.Queue.Q} {used : Id → Prop} (h : RQ q a used) {id : Id} (hid : id ∈ flat q.state.disp) :
    ∃ m, mget q.state.registry id = some m ∧ m.state = .ready := by
  have h1 := mem_revFlat.2 hid
  rw [RS.idr h.st] at h1
  obtain ⟨x, hx, rfl⟩ := List.mem_map.1 h1
  obtain ⟨m, hm, _, hs⟩ := RS.cr h.st x hx
  exact ⟨m, hm, hs⟩

theorem ackw_not_flat {q : QInner} {a : Spec.Queue.Q} {used : Id → Prop} (h : RQ q a used) {id : Id} (hid : id ∈ flat q.state.ackw) :
    id ∉ flat q.state.disp := by
  intro hc
  obtain ⟨m, hm, hs⟩ := flat_ready h hc
  rw [RS.idf h.st] at hid
  obtain ⟨x, hx, rfl⟩ := List.mem_map.1 hid
  obtain ⟨m', hm', _, hs'⟩ := RS.cf h.st x hx
  rw [hm] at hm'
  cases hm'
  rw [hs] at hs'
  cases hs'

theorem nack_disp {q : QInner} {a : Spec.Queue.Q} {used : Id → Prop} (h : RQ q a used) (id : Id) (reason : Str) (t : Nat) :
    (flat (q.state.nack id reason q.cfg.maxRetries t).2.disp).Sublist (flat q.state.disp) ∨
    (flat q.state.disp).Sublist (flat (q.state.nack id reason q.cfg.maxRetries t).2.disp) := by
  have hs : BSorted q.state.disp := RS.bsd h.st
  unfold QState.nack
  cases hg : mget q.state.registry id with
  | none => exact .inl (List.Sublist.refl _)
  | some m =>
    dsimp only
    have hreg : mget (mupd q.state.registry id (fun m => { m with failure := some reason })) id = some { m with failure := some reason } := by
      rw [mget_mupd, if_pos rfl, hg]; rfl
    generalize mupd q.state.registry id (fun m => { m with failure := some reason }) = reg at hreg ⊢
    generalize hs1 : (QState.mk reg q.state.disp q.state.ackw) = s1
    have hd : s1.disp = q.state.disp := by rw [← hs1]
    have hm1 : mget s1.registry id = some { m with failure := some reason } := by rw [← hs1]; exact hreg
    split
    · left
      have hl := (((Less.same hd).trans (deleteMessage_less s1 id)) hs).2
      generalize s1.deleteMessage id = r at hl ⊢
      obtain ⟨o, s2⟩ := r
      cases o <;> exact hl
    · by_cases hw : id ∈ flat q.state.disp
      · left
        obtain ⟨m', hm', hr⟩ := flat_ready h hw
        rw [hg] at hm'
        cases hm'
        have ht : s1.transitionTo id .ready = (true, s1) := by
          simp only [QState.transitionTo, hm1, hr, if_true]
        rw [ht]
        dsimp only
        split <;> (dsimp only; rw [hd]; exact List.Sublist.refl _)
      · right
        have hm := transition_more s1 id
        unfold More at hm
        rw [hd, filter_none (by intro i hi; simp only [List.mem_singleton] at hi; subst hi; exact hw)] at hm
        generalize s1.transitionTo id .ready = r at hm ⊢
        obtain ⟨b, s2⟩ := r
        cases b with
        | false => exact hm
        | true =>
          dsimp only
          split <;> exact hm

/-- A request either takes waiting messages away or adds some; the others keep their order. -/
theorem disp_step {q : QInner} {a : Spec.Queue.Q} {used : List Id} (h : RQ q a (· ∈ used)) (op : Op) (hf : ∀ id ∈ op.pushId, id ∉ used) :
    (flat (Queue.step q op).1.state.disp).Sublist (flat q.state.disp) ∨ (flat q.state.disp).Sublist (flat (Queue.step q op).1.state.disp) := by
  have hs : BSorted q.state.disp := RS.bsd h.st
  have fresh : ∀ id p, mget q.state.registry id = none →
      (flat q.state.disp).Sublist (flat (bentry (fun l => lhsInsert l id) q.state.disp p)) := by
    intro id p hn
    refine flat_bentry id _ _ (fun hm => ?_)
    obtain ⟨m, hm, _⟩ := flat_ready h hm
    rw [hn] at hm
    cases hm
  cases op with
  | push id pl p t =>
    right
    refine fresh id p ?_
    cases hg : mget q.state.registry id with
    | none => rfl
    | some m => exact absurd (h.usedR id (by rw [hg]; simp)) (hf id (by simp [Op.pushId]))
  | pop t =>
    left
    have := (popSingle_less q.state t q.cfg.visibilityTimeout hs).2
    simp only [Queue.step]
    generalize q.state.popSingle t q.cfg.visibilityTimeout = r at this ⊢
    obtain ⟨m, e, s1⟩ := r
    cases m <;> exact this
  | consume n t =>
    left
    simp only [Queue.step]
    split
    · exact List.Sublist.refl _
    · exact (takeBatch_less t q.cfg.visibilityTimeout n q.state hs).2
  | ack id => exact .inl (deleteMessage_less q.state id hs).2
  | nack id reason t =>
    have he : (Queue.step q (.nack id reason t)).1.state = (q.state.nack id reason q.cfg.maxRetries t).2 := by
      simp only [Queue.step]
      generalize q.state.nack id reason q.cfg.maxRetries t = r
      obtain ⟨⟨x, y⟩, s1⟩ := r
      cases x <;> cases y <;> rfl
    rw [he]
    exact nack_disp h id reason t
  | tick t t' =>
    right
    simp only [Queue.step]
    split
    · exact List.Sublist.refl _
    · split
      · show (flat q.state.disp).Sublist (flat (q.state.processExpired q.cfg.maxRetries t').2.disp)
        simp only [QState.processExpired, expireAll_disp]
        have hm := requeueAll_more ((q.state.expiredIds t').filter (fun id => !q.state.exhausted q.cfg.maxRetries id)) q.state
        unfold More at hm
        rw [filter_none] at hm
        · exact hm
        · intro i hi
          have h1 := (List.mem_filter.1 (List.mem_filter.1 hi).1).1
          obtain ⟨e, he, hie⟩ := List.mem_flatMap.1 h1
          exact ackw_not_flat h (List.mem_flatMap.2 ⟨e, (List.takeWhile_sublist _).subset he, hie⟩)
      · exact List.Sublist.refl _
  | peekDlq _ _ => exact .inl (List.Sublist.refl _)
  | moveToQueue id =>
    right
    simp only [Queue.step, dlqRemove]
    cases hg : mget q.dlq id with
    | none => exact List.Sublist.refl _
    | some d =>
      have hm := mget_some_mem hg
      have hk : id = d.id := h.dkey _ hm
      refine fresh d.id d.priority (h.disj d.id ?_)
      rw [← hk]
      exact List.mem_map.2 ⟨_, hm, rfl⟩
  | deleteDlq id =>
    left
    simp only [Queue.step, dlqRemove]
    cases mget q.dlq id <;> exact List.Sublist.refl _
  | purgeDlq => exact .inl (List.Sublist.refl _)
  | counters => exact .inl (List.Sublist.refl _)

theorem waiting_nodup {q : QInner} {a : Spec.Queue.Q} {used : Id → Prop} (h : RQ q a used) : ((waiting q).map (·.id)).Nodup := by
  have hp := (h.view.wait.map (fun x => x.id)).symm
  have h2 := RS.ndr h.st
  have := hp.nodup_iff.1 h2
  rw [List.map_map] at this
  exact this

/-! ### The other views -/

theorem flat_sorted {key : Nat → Nat} {ix : Index} (hs : BSorted ix) (hk : BKeyed key ix) : (flat ix).Pairwise (fun i j => key i ≤ key j) := by
  induction ix with
  | nil => exact List.Pairwise.nil
  | cons e t ih =>
    have hs' := List.pairwise_cons.1 hs
    simp only [flat, List.flatMap_cons]
    refine List.pairwise_append.2 ⟨?_, ih hs'.2 (fun x hx => hk x (List.mem_cons_of_mem _ hx)), ?_⟩
    · refine List.Pairwise.imp_of_mem (R := fun _ _ => True) (fun {i j} hi hj _ => ?_) (List.pairwise_of_forall (fun _ _ => trivial))
      rw [hk e (by simp) i hi, hk e (by simp) j hj]
      exact Nat.le_refl _
    · intro i hi j hj
      obtain ⟨x, hx, hj⟩ := List.mem_flatMap.1 hj
      rw [hk e (by simp) i hi, hk x (List.mem_cons_of_mem _ hx) j hj]
      exact Nat.le_of_lt (hs'.1 x hx)

/-- Ordered by the time at which they are due. -/
def DueOrder (l : List (Nat × Spec.Queue.Item)) : Prop := l.Pairwise (fun e e' => e.1 ≤ e'.1)

theorem flight_sorted {q : QInner} {a : Spec.Queue.Q} {used : Id → Prop} (h : RQ q a used) : DueOrder a.flight := by
  have h1 := flat_sorted (RS.bsa h.st) (RS.ka h.st)
  rw [RS.idf h.st, List.pairwise_map] at h1
  refine List.Pairwise.imp_of_mem (fun {x y} hx hy hxy => ?_) h1
  obtain ⟨m, hm, _, hs⟩ := RS.cf h.st x hx
  obtain ⟨m', hm', _, hs'⟩ := RS.cf h.st y hy
  simpa [dueK, hm, hm', hs, hs'] using hxy

theorem DueOrder.split {l : List (Nat × Spec.Queue.Item)} (h : DueOrder l) (due : Nat) :
    l = l.filter (fun e => e.1 ≤ due) ++ l.filter (fun e => due < e.1) := by
  induction l with
  | nil => rfl
  | cons e t ih =>
    obtain ⟨h1, h2⟩ := List.pairwise_cons.1 h
    by_cases he : e.1 ≤ due
    · rw [List.filter_cons_of_pos (by simpa using he), List.filter_cons_of_neg (by simpa using he), List.cons_append, ← ih h2]
    · have hn : t.filter (fun e => e.1 ≤ due) = [] := List.filter_eq_nil_iff.2 (fun x hx => by
        have := h1 x hx
        simp only [decide_eq_true_eq]
        omega)
      have ht : t.filter (fun e => due < e.1) = t := List.filter_eq_self.2 (fun x hx => by
        have := h1 x hx
        simp only [decide_eq_true_eq]
        omega)
      rw [List.filter_cons_of_neg (by simpa using he), List.filter_cons_of_pos (by simp only [decide_eq_true_eq]; omega), hn, ht]
      rfl

theorem file_sub {l : List (Nat × Spec.Queue.Item)} (h : DueOrder l) (due : Nat) (x : Spec.Queue.Item) : l.Sublist (Spec.Queue.file due x l) := by
  have := h.split due
  unfold Spec.Queue.file
  conv => lhs; rw [this]
  exact (List.Sublist.refl _).append (List.sublist_cons_self _ _)

theorem file_order {l : List (Nat × Spec.Queue.Item)} (h : DueOrder l) (due : Nat) (x : Spec.Queue.Item) : DueOrder (Spec.Queue.file due x l) := by
  unfold Spec.Queue.file
  refine List.pairwise_append.2 ⟨h.filter _, List.pairwise_cons.2 ⟨?_, h.filter _⟩, ?_⟩
  · intro y hy
    have := (List.mem_filter.1 hy).2
    simp only [decide_eq_true_eq] at this
    show due ≤ y.1
    omega
  · intro y hy z hz
    have := (List.mem_filter.1 hy).2
    simp only [decide_eq_true_eq] at this
    rcases List.mem_cons.1 hz with rfl | hz
    · exact this
    · have h2 := (List.mem_filter.1 hz).2
      simp only [decide_eq_true_eq] at h2
      omega

theorem serve_flight {a : Spec.Queue.Q} (h : DueOrder a.flight) (due : Nat) :
    DueOrder (Spec.Queue.serve due a).2.flight ∧ a.flight.Sublist (Spec.Queue.serve due a).2.flight := by
  unfold Spec.Queue.serve
  split
  · exact ⟨h, List.Sublist.refl _⟩
  · exact ⟨file_order h _ _, file_sub h _ _⟩

theorem serveN_flight (due : Nat) : ∀ (n : Nat) {a : Spec.Queue.Q}, DueOrder a.flight → a.flight.Sublist (Spec.Queue.serveN due n a).2.flight := by
  intro n
  induction n with
  | zero => intro a _; exact List.Sublist.refl _
  | succ n ih =>
    intro a h
    have hs := serve_flight h due
    simp only [Spec.Queue.serveN]
    generalize Spec.Queue.serve due a = r at hs ⊢
    obtain ⟨o, a'⟩ := r
    cases o with
    | none => exact hs.2
    | some x => exact hs.2.trans (ih hs.1)

theorem serveN_dead (due : Nat) : ∀ (n : Nat) (a : Spec.Queue.Q), (Spec.Queue.serveN due n a).2.dead = a.dead := by
  intro n
  induction n with
  | zero => intro a; rfl
  | succ n ih =>
    intro a
    have hs : (Spec.Queue.serve due a).2.dead = a.dead := by unfold Spec.Queue.serve; split <;> rfl
    simp only [Spec.Queue.serveN]
    generalize Spec.Queue.serve due a = r at hs ⊢
    obtain ⟨o, a'⟩ := r
    cases o with
    | none => exact hs
    | some x => exact (ih a').trans hs

/-- A request either takes messages out of flight or hands some out. -/
theorem flight_step {a : Spec.Queue.Q} (h : DueOrder a.flight) (vt mr : Nat) (r : Str) (op : Spec.Queue.Req) :
    (Spec.Queue.step vt mr r a op).1.flight.Sublist a.flight ∨ a.flight.Sublist (Spec.Queue.step vt mr r a op).1.flight := by
  cases op with
  | push => exact .inl (List.Sublist.refl _)
  | pop t => exact .inr (serve_flight h _).2
  | consume n t => exact .inr (serveN_flight _ n h)
  | ack id => exact .inl List.filter_sublist
  | nack id reason t =>
    left
    simp only [Spec.Queue.step, Spec.Queue.fail]
    split
    · split <;> exact List.filter_sublist
    · split
      · split
        · exact List.filter_sublist
        · exact List.Sublist.refl _
      · exact List.Sublist.refl _
  | tick t t' =>
    left
    simp only [Spec.Queue.step]
    split
    · exact List.filter_sublist
    · exact List.Sublist.refl _
  | peekDlq => exact .inl (List.Sublist.refl _)
  | moveToQueue id => left; simp only [Spec.Queue.step, Spec.Queue.replay]; split <;> exact List.Sublist.refl _
  | deleteDlq id => left; simp only [Spec.Queue.step, Spec.Queue.discard]; split <;> exact List.Sublist.refl _
  | purgeDlq => exact .inl (List.Sublist.refl _)
  | counters => exact .inl (List.Sublist.refl _)

/-- A request either takes dead letters away or buries some. -/
theorem dead_step (a : Spec.Queue.Q) (vt mr : Nat) (r : Str) (op : Spec.Queue.Req) :
    (Spec.Queue.step vt mr r a op).1.dead.Sublist a.dead ∨ a.dead.Sublist (Spec.Queue.step vt mr r a op).1.dead := by
  cases op with
  | push => exact .inl (List.Sublist.refl _)
  | pop t => left; simp only [Spec.Queue.step, Spec.Queue.serve]; split <;> exact List.Sublist.refl _
  | consume n t => left; simp only [Spec.Queue.step, serveN_dead]; exact List.Sublist.refl _
  | ack id => exact .inl (List.Sublist.refl _)
  | nack id reason t =>
    right
    simp only [Spec.Queue.step, Spec.Queue.fail]
    split
    · split
      · exact List.sublist_append_left _ _
      · exact List.Sublist.refl _
    · split
      · split
        · exact List.sublist_append_left _ _
        · exact List.Sublist.refl _
      · exact List.Sublist.refl _
  | tick t t' =>
    right
    simp only [Spec.Queue.step]
    split
    · exact List.sublist_append_left _ _
    · exact List.Sublist.refl _
  | peekDlq => exact .inl (List.Sublist.refl _)
  | moveToQueue id =>
    left; simp only [Spec.Queue.step, Spec.Queue.replay]; split
    · exact List.filter_sublist
    · exact List.Sublist.refl _
  | deleteDlq id =>
    left; simp only [Spec.Queue.step, Spec.Queue.discard]; split
    · exact List.filter_sublist
    · exact List.Sublist.refl _
  | purgeDlq => exact .inl (List.nil_sublist _)
  | counters => exact .inl (List.Sublist.refl _)

theorem all_flight {q : QInner} {a : Spec.Queue.Q} {used : Id → Prop} (h : RQ q a used) : View.inflight.all q = a.flight.map (·.2.id) := by
  rw [← h.view.flight, List.map_map]; rfl

theorem all_dead {q : QInner} {a : Spec.Queue.Q} {used : Id → Prop} (h : RQ q a used) : View.dead.all q = (a.dead.map (·.item.id)).reverse := by
  rw [← List.map_reverse, ← h.view.dead, List.map_map]; rfl

theorem all_nodup (v : View) {q : QInner} {a : Spec.Queue.Q} {used : Id → Prop} (h : RQ q a used) : (v.all q).Nodup := by
  have hd := h.view.distinct
  unfold Spec.Queue.Q.Distinct at hd
  rw [Spec.Queue.ids_eq, List.nodup_append, List.nodup_append] at hd
  cases v with
  | pending => exact waiting_nodup h
  | inflight => rw [all_flight h]; exact hd.2.1.1
  | dead => rw [all_dead h]; exact (List.reverse_perm _).nodup_iff.2 hd.2.1.2.1

theorem all_step (v : View) {q : QInner} {a : Spec.Queue.Q} {used : List Id} (h : RQ q a (· ∈ used)) {op : Op} (hok : op.ok)
    (hf : ∀ id ∈ op.pushId, id ∉ used) :
    (v.all (Queue.step q op).1).Sublist (v.all q) ∨ (v.all q).Sublist (v.all (Queue.step q op).1) := by
  have h' := (h.stepU hok hf).1
  cases v with
  | pending =>
    have hd := disp_step h op hf
    rw [← waiting_ids h, ← waiting_ids h'] at hd
    exact hd
  | inflight =>
    rw [all_flight h, all_flight h']
    rcases flight_step (flight_sorted h) q.cfg.visibilityTimeout q.cfg.maxRetries timeoutReason op.req with hd | hd
    · exact .inl (hd.map _)
    · exact .inr (hd.map _)
  | dead =>
    rw [all_dead h, all_dead h']
    rcases dead_step a q.cfg.visibilityTimeout q.cfg.maxRetries timeoutReason op.req with hd | hd
    · exact .inl (hd.map _).reverse
    · exact .inr (hd.map _).reverse

/-- If all stay, the list becomes longer. -/
theorem all_grows (v : View) {q : QInner} {a : Spec.Queue.Q} {used : List Id} (h : RQ q a (· ∈ used)) {op : Op} (hok : op.ok) (hf : ∀ id ∈ op.pushId, id ∉ used)
    (hst : ∀ id ∈ v.all q, id ∈ v.all (Queue.step q op).1) : (v.all q).Sublist (v.all (Queue.step q op).1) := by
  rcases all_step v h hok hf with hd | hd
  · have := hd.eq_of_length_le ((all_nodup v h).length_le_of_subset hst)
    rw [this]
    exact List.Sublist.refl _
  · exact hd

theorem stays_append (v : View) : ∀ (x y : List Op) (q : QInner), Stays v q (x ++ y) → Stays v q x ∧ Stays v (Queue.run q x).1 y := by
  intro x
  induction x with
  | nil => intro y q h; exact ⟨trivial, h⟩
  | cons o x ih =>
    intro y q h
    obtain ⟨h1, h2⟩ := ih y _ h.2
    exact ⟨⟨h.1, h1⟩, h2⟩

theorem all_run (v : View) : ∀ (ops : List Op) {q : QInner} {a : Spec.Queue.Q} {used : List Id}, RQ q a (· ∈ used) → Fresh used ops → Stays v q ops →
    (v.all q).Sublist (v.all (Queue.run q ops).1) ∧
    ∃ b, RQ (Queue.run q ops).1 b (· ∈ used ++ pushIds ops) := by
  intro ops
  induction ops with
  | nil => intro q a used h _ _; exact ⟨List.Sublist.refl _, a, by simpa [pushIds, Queue.run] using h⟩
  | cons o ops ih =>
    intro q a used h hf hst
    obtain ⟨hok, hn, hf⟩ := hf
    rw [pushIds_cons] at hn hf
    have hf1 : ∀ id ∈ o.pushId, id ∉ used := fun i hi => hf i (List.mem_append_left _ hi)
    have h1 := all_grows v h (hok o (by simp)) hf1 hst.1
    have h2 := (h.stepU (hok o (by simp)) hf1).1
    obtain ⟨h3, b, h4⟩ := ih h2 ⟨fun o ho => hok o (List.mem_cons_of_mem _ ho), (List.nodup_append.1 hn).2.1, by
      intro i hi hm
      rcases List.mem_append.1 hm with hm | hm
      · exact hf i (List.mem_append_right _ hi) hm
      · exact (List.nodup_append.1 hn).2.2 i hm i hi rfl⟩ hst.2
    refine ⟨h1.trans h3, b, ?_⟩
    rw [pushIds_cons, ← List.append_assoc]
    exact h4

theorem stays_pushes : ∀ (ops : List Op) {q : QInner} {a : Spec.Queue.Q} {used : List Id}, RQ q a (· ∈ used) → Fresh used ops →
    (∀ o ∈ ops, ∃ id payload priority now, o = .push id payload priority now) → Stays .pending q ops := by
  intro ops
  induction ops with
  | nil => intro q a used _ _ _; trivial
  | cons o ops ih =>
    intro q a used h hf hp
    obtain ⟨hok, hn, hf⟩ := hf
    rw [pushIds_cons] at hn hf
    have hf1 : ∀ id ∈ o.pushId, id ∉ used := fun i hi => hf i (List.mem_append_left _ hi)
    have h2 := (h.stepU (hok o (by simp)) hf1).1
    refine ⟨?_, ih h2 ⟨fun o ho => hok o (List.mem_cons_of_mem _ ho), (List.nodup_append.1 hn).2.1, ?_⟩ (fun o ho => hp o (List.mem_cons_of_mem _ ho))⟩
    · intro i hi
      have hs : ((waiting q).map (·.id)).Sublist ((waiting (Queue.step q o).1).map (·.id)) := by
        rw [waiting_ids h, waiting_ids h2]
        obtain ⟨id, pl, p, t, rfl⟩ := hp o (by simp)
        refine flat_bentry id _ _ (fun hc => ?_)
        obtain ⟨m, hm, _⟩ := flat_ready h hc
        exact hf1 id (by simp [Op.pushId]) (h.usedR id (by rw [hm]; simp))
      exact hs.subset hi
    · intro i hi hm
      rcases List.mem_append.1 hm with hm | hm
      · exact hf i (List.mem_append_right _ hi) hm
      · exact (List.nodup_append.1 hn).2.2 i hm i hi rfl

theorem mem_page {l : List Nat} {x o : Nat} (hx : x ∈ l) (h1 : o ≤ l.idxOf x) (h2 : l.idxOf x < o + pageSize) : x ∈ (l.drop o).take pageSize := by
  have hlt := List.idxOf_lt_length_of_mem hx
  rw [List.mem_iff_getElem]
  refine ⟨l.idxOf x - o, by simp only [List.length_take, List.length_drop]; omega, ?_⟩
  simp only [List.getElem_take, List.getElem_drop]
  have : o + (l.idxOf x - o) = l.idxOf x := by omega
  simp only [this]
  exact List.getElem_idxOf hlt

theorem walk_run (lossy : Bytes → Str) (v : View) : ∀ (sess : List (List Op)) {q : QInner} {a : Spec.Queue.Q} {used : List Id} (o : Nat), RQ q a (· ∈ used) →
    Fresh used sess.flatten → Stays v q sess.flatten →
    (pageWalk lossy v q o sess).2 = true → ∀ x ∈ v.all q, o ≤ (v.all q).idxOf x → x ∈ (pageWalk lossy v q o sess).1 := by
  intro sess
  induction sess with
  | nil =>
    intro q a used o h _ _ hend x hx ho
    simp only [pageWalk] at hend ⊢
    rw [(queue_page lossy q v o).1] at hend
    rw [(queue_page lossy q v o).2]
    have hlt := List.idxOf_lt_length_of_mem hx
    have hend : ¬ o + pageSize < (v.all q).length := by
      intro hc
      have : nextOn pageSize (v.all q).length o = true := decide_eq_true hc
      rw [this] at hend
      cases hend
    exact mem_page (l := v.all q) hx ho (by omega)
  | cons ops rest ih =>
    intro q a used o h hf hst hend x hx ho
    obtain ⟨hok, hn, hf⟩ := hf
    rw [List.flatten_cons] at hok hn hf hst
    rw [pushIds_append] at hn hf
    obtain ⟨hst1, hst2⟩ := stays_append v _ _ _ hst
    have hlt := List.idxOf_lt_length_of_mem hx
    by_cases hw : (v.all q).idxOf x < o + pageSize
    · have hm := mem_page hx ho hw
      simp only [pageWalk]
      split
      · refine List.mem_append_left _ ?_
        rw [(queue_page lossy q v o).2]; exact hm
      · dsimp only
        rw [(queue_page lossy q v o).2]; exact hm
    · have hnext : nextOn pageSize (queueMessages lossy (some q) (v.query o)).total o = true := by
        rw [(queue_page lossy q v o).1]
        exact decide_eq_true (by show o + pageSize < (v.all q).length; omega)
      have hturn : turn pageSize (queueMessages lossy (some q) (v.query o)).total o .next = o + pageSize := by
        simp only [turn, hnext, if_true]
      simp only [pageWalk, hnext, if_true, hturn] at hend ⊢
      obtain ⟨h1, b, h2⟩ := all_run v ops h ⟨fun o ho => hok o (List.mem_append_left _ ho), (List.nodup_append.1 hn).1,
        fun i hi => hf i (List.mem_append_left _ hi)⟩ hst1
      refine List.mem_append_right _ (ih (o + pageSize) h2 ⟨fun o ho => hok o (List.mem_append_right _ ho), (List.nodup_append.1 hn).2.1, ?_⟩ hst2 hend x
        (h1.subset hx) ?_)
      · intro i hi hm
        rcases List.mem_append.1 hm with hm | hm
        · exact hf i (List.mem_append_right _ hi) hm
        · exact (List.nodup_append.1 hn).2.2 i hm i hi rfl
      · have := idxOf_sublist h1 (all_nodup v h2) hx
        omega

end Verif.Dashboard
