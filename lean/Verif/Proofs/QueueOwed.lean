import Verif.Proofs.QueueEra

/-!
# Lemmas about messages that have to come again

A message that nobody acknowledged and that has deliveries left: where it can be, in memory and in the table, whatever crashes.
-/

namespace Verif.Spec.Queue

/-- The message waits, with at most `n` deliveries behind it. -/
def Waits (id n : Nat) (q : Q) : Prop := ∃ x ∈ q.ready, x.id = id ∧ x.attempts ≤ n

/-- The message waits or is handed out until `D` at the latest, with at most `n` deliveries behind it. -/
def Near (id n D : Nat) (q : Q) : Prop := Waits id n q ∨ ∃ e ∈ q.flight, e.2.id = id ∧ e.1 ≤ D ∧ e.2.attempts ≤ n

theorem eq_of_key {α : Type} {k : α → Nat} {l : List α} (hn : (l.map k).Nodup) : ∀ {a b : α}, a ∈ l → b ∈ l → k a = k b → a = b := by
  induction l with
  | nil => intro a b ha; cases ha
  | cons x l ih =>
    intro a b ha hb he
    rw [List.map_cons, List.nodup_cons] at hn
    rcases List.mem_cons.1 ha with h1 | h1 <;> rcases List.mem_cons.1 hb with h2 | h2
    · rw [h1, h2]
    · exact absurd (List.mem_map.2 ⟨b, h2, by rw [← he, h1]⟩) hn.1
    · exact absurd (List.mem_map.2 ⟨a, h1, by rw [he, h2]⟩) hn.1
    · exact ih hn.2 h1 h2 he

theorem flight_stays {vt mr : Nat} {tr : Str} {q : Q} {e : Nat × Item} (hx : e ∈ q.flight) {op : Req} (hack : op ≠ .ack e.2.id)
    (hr : ¬ releases e.2.id e.1 op) : e ∈ (Queue.step vt mr tr q op).1.flight := by
  cases op with
  | push _ _ _ _ => exact hx
  | pop now =>
    simp only [Queue.step]
    rw [(serve_eq_serveN _ q).1, (serveN_eq _ _ q).2.2.2, mem_file_fold]
    exact Or.inl hx
  | consume max now =>
    simp only [Queue.step]
    rw [(serveN_eq _ _ q).2.2.2, mem_file_fold]
    exact Or.inl hx
  | ack i =>
    have hi : e.2.id ≠ i := fun h => hack (by rw [h])
    exact List.mem_filter.2 ⟨hx, by simpa using hi⟩
  | nack i reason now =>
    have hi : i ≠ e.2.id := hr
    have hdf : e ∈ dropFlight i q.flight := List.mem_filter.2 ⟨hx, by simpa using fun hh => hi hh.symm⟩
    simp only [Queue.step, fail]
    cases lookupFlight i q with
    | some y => simp only; split <;> exact hdf
    | none =>
      simp only
      cases lookupReady i q with
      | some y =>
        simp only
        split
        · exact hdf
        · exact hx
      | none => exact hx
  | tick now now' =>
    simp only [Queue.step]
    split
    · refine List.mem_filter.2 ⟨hx, ?_⟩
      simp only [decide_eq_true_eq]
      exact Nat.not_le.1 hr
    · exact hx
  | peekDlq _ _ => exact hx
  | moveToQueue i =>
    simp only [Queue.step, replay]
    cases lookupDead i q <;> exact hx
  | deleteDlq i =>
    simp only [Queue.step, discard]
    cases lookupDead i q <;> exact hx
  | purgeDlq => exact hx
  | counters => exact hx

/-- A message that waits keeps waiting while it is neither handed out nor acknowledged, even if it is refused. -/
theorem Waits.step {vt mr : Nat} {tr : Str} {q : Q} {id n : Nat} (hd : q.Distinct) (h : Waits id n q) (hn : n < mr) {op : Req} (hack : op ≠ .ack id)
    (hdel : id ∉ (Queue.step vt mr tr q op).2.delivered) : Waits id n (Queue.step vt mr tr q op).1 := by
  obtain ⟨x, hx, rfl, ha⟩ := h
  by_cases hk : ∃ reason t, op = .nack x.id reason t
  · obtain ⟨reason, t, rfl⟩ := hk
    refine ⟨x, ?_, rfl, ha⟩
    simp only [Queue.step, fail]
    cases hl : lookupFlight x.id q with
    | some y =>
      obtain ⟨e, he, hey⟩ := Option.map_eq_some_iff.1 hl
      have := List.find?_some he
      simp only [decide_eq_true_eq] at this
      exact absurd this.symm (Distinct.rf hd hx (List.mem_of_find?_eq_some he))
    | none =>
      simp only
      cases hr : lookupReady x.id q with
      | none => exact hx
      | some y =>
        simp only
        have h1 := List.find?_some hr
        simp only [decide_eq_true_eq] at h1
        have h2 : y = x := eq_of_key (Distinct.ready hd) (List.mem_of_find?_eq_some hr) hx h1
        rw [h2, if_neg (by omega)]
        exact hx
  · exact ⟨x, ready_stays hx hack (fun reason t he => hk ⟨reason, t, he⟩) hdel, rfl, ha⟩

theorem Near.step {vt mr : Nat} {tr : Str} {q : Q} {id n D : Nat} (hd : q.Distinct) (h : Near id n D q) (hn : n < mr) {op : Req} (hack : op ≠ .ack id)
    (hc : ∀ t, (op = .pop t ∨ ∃ k, op = .consume k t) → id ∈ (Queue.step vt mr tr q op).2.delivered → t + vt ≤ D) :
    Near id (n + if id ∈ (Queue.step vt mr tr q op).2.delivered then 1 else 0) D (Queue.step vt mr tr q op).1 := by
  rcases h with h | ⟨e, he, hi, hD, ha⟩
  · by_cases hdel : id ∈ (Queue.step vt mr tr q op).2.delivered
    · rw [if_pos hdel]
      right
      obtain ⟨x, hx, hxi, hxa⟩ := h
      have key : ∀ k t, t + vt ≤ D → id ∈ ((serveN (t + vt) k q).1).map (·.id) →
          ∃ e ∈ (serveN (t + vt) k q).2.flight, e.2.id = id ∧ e.1 ≤ D ∧ e.2.attempts ≤ n + 1 := by
        intro k t ht hm
        rw [(serveN_eq _ k q).1, List.map_map] at hm
        obtain ⟨y, hy, hyi⟩ := List.mem_map.1 hm
        have hyi' : y.id = id := hyi
        have : y = x := eq_of_key (Distinct.ready hd) (List.mem_of_mem_take hy) hx (hyi'.trans hxi.symm)
        subst this
        refine ⟨(t + vt, y.bump), ?_, hyi', ht, Nat.succ_le_succ hxa⟩
        rw [(serveN_eq _ k q).2.2.2, mem_file_fold]
        exact .inr ⟨y, hy, rfl⟩
      cases op with
      | pop t =>
        have ht := hc t (.inl rfl) hdel
        simp only [Queue.step, Ans.delivered] at hdel ⊢
        rw [(serve_eq_serveN _ q).1]
        rw [(serve_eq_serveN _ q).2] at hdel
        exact key 1 t ht hdel
      | consume k t =>
        have ht := hc t (.inr ⟨k, rfl⟩) hdel
        exact key k t ht hdel
      | _ => simp [Queue.step, Ans.delivered] at hdel
    · rw [if_neg hdel, Nat.add_zero]
      exact .inl (h.step hd hn hack hdel)
  · have up : ∀ {k}, Waits id n (Queue.step vt mr tr q op).1 → Near id (n + k) D (Queue.step vt mr tr q op).1 := by
      rintro k ⟨x, h1, h2, h3⟩
      exact .inl ⟨x, h1, h2, by omega⟩
    by_cases hr : releases e.2.id e.1 op
    · subst hi
      cases op with
      | nack i reason t =>
        have hr' : i = e.2.id := hr
        subst hr'
        refine up ⟨e.2, ?_, rfl, ha⟩
        simp only [Queue.step, fail]
        cases hl : lookupFlight e.2.id q with
        | none =>
          have := List.find?_eq_none.1 (Option.map_eq_none_iff.1 hl) e he
          simp at this
        | some y =>
          obtain ⟨e', he', hey⟩ := Option.map_eq_some_iff.1 hl
          have h1 := List.find?_some he'
          simp only [decide_eq_true_eq] at h1
          have h2 : e' = e := eq_of_key (k := fun e : Nat × Item => e.2.id) (Distinct.flight hd) (List.mem_of_find?_eq_some he') he h1
          rw [h2] at hey
          subst hey
          simp only
          rw [if_neg (by omega)]
          exact mem_lineUp.2 (.inl rfl)
      | tick t t' =>
        have hr' : e.1 ≤ t' := hr
        by_cases hany : q.flight.any (fun e => e.1 ≤ t) = true
        · refine up ⟨e.2, ?_, rfl, ha⟩
          simp only [Queue.step]
          rw [if_pos hany]
          refine mem_lineUp_fold.2 (.inr (List.mem_filter.2 ⟨List.mem_map.2 ⟨e, List.mem_filter.2 ⟨he, by simpa using hr'⟩, rfl⟩, ?_⟩))
          simp only [decide_eq_true_eq]; omega
        · right
          simp only [Queue.step]
          rw [if_neg hany]
          exact ⟨e, he, rfl, hD, by omega⟩
      | _ => exact absurd hr (by simp [releases])
    · refine .inr ⟨e, flight_stays he (by rw [hi]; exact hack) hr, hi, hD, by omega⟩

/-- The timeout check makes the message available again. -/
theorem Near.tick {vt mr : Nat} {tr : Str} {q : Q} {id n D t t' : Nat} (h : Near id n D q) (hn : n < mr) (h1 : D ≤ t) (h2 : D ≤ t') :
    Waits id n (Queue.step vt mr tr q (.tick t t')).1 := by
  rcases h with ⟨x, hx, hi, ha⟩ | ⟨e, he, hi, hD, ha⟩
  · exact ⟨x, ready_stays hx (by simp) (by simp) (by simp [Queue.step, Ans.delivered]), hi, ha⟩
  · refine ⟨e.2, ?_, hi, ha⟩
    simp only [Queue.step]
    rw [if_pos (List.any_eq_true.2 ⟨e, he, by simp only [decide_eq_true_eq]; omega⟩)]
    refine mem_lineUp_fold.2 (.inr (List.mem_filter.2 ⟨List.mem_map.2 ⟨e, List.mem_filter.2 ⟨he, ?_⟩, rfl⟩, ?_⟩))
    · simp only [decide_eq_true_eq]; omega
    · simp only [decide_eq_true_eq]; omega

end Verif.Spec.Queue

namespace Verif.Queue

open Spec.Queue (Item Dead Q Waits Near)

/-! ## In memory -/

/-- The message has at most `n` deliveries behind it, and waits or is handed out until `D` at the latest; if it waits, `D` is also what its row says. -/
def Pends (q : QInner) (id : Id) (n D : Nat) : Prop :=
  ∃ m, mget q.state.registry id = some m ∧ m.attempts ≤ n ∧ MsgI D m ∧ ∀ ts, m.state = .inFlight ts → ts ≤ D

/-- And it waits. -/
def Frees (q : QInner) (id : Id) (n D : Nat) : Prop :=
  ∃ m, mget q.state.registry id = some m ∧ m.attempts ≤ n ∧ MsgI D m ∧ m.state = .ready

theorem Frees.pends {q : QInner} {id : Id} {n D : Nat} (h : Frees q id n D) : Pends q id n D := by
  obtain ⟨m, h1, h2, h3, h4⟩ := h
  exact ⟨m, h1, h2, h3, fun ts hts => by rw [h4] at hts; cases hts⟩

theorem Pends.near {q : QInner} {a : Q} {used : Id → Prop} (h : RQ q a used) {id : Id} {n D : Nat} (hp : Pends q id n D) : Near id n D a := by
  obtain ⟨m, h1, h2, _, h4⟩ := hp
  obtain ⟨hid, hc⟩ := RS.comp h.st id m h1
  rcases hc with ⟨_, hc⟩ | ⟨ts, hts, hc⟩
  · exact .inl ⟨m.item, hc, hid, h2⟩
  · exact .inr ⟨_, hc, hid, h4 ts hts, h2⟩

theorem Frees.waits {q : QInner} {a : Q} {used : Id → Prop} (h : RQ q a used) {id : Id} {n D : Nat} (hp : Frees q id n D) : Waits id n a := by
  obtain ⟨m, h1, h2, _, h4⟩ := hp
  obtain ⟨hid, hc⟩ := RS.comp h.st id m h1
  rcases hc with ⟨_, hc⟩ | ⟨ts, hts, hc⟩
  · exact ⟨m.item, hc, hid, h2⟩
  · rw [h4] at hts; cases hts

theorem Frees.of {q : QInner} {a : Q} {used : Id → Prop} (h : RQ q a used) {id : Id} {n D : Nat} (hw : Waits id n a)
    (hm : ∀ m, mget q.state.registry id = some m → MsgI D m) : Frees q id n D := by
  obtain ⟨x, hx, hi, ha⟩ := hw
  obtain ⟨m, h1, h2, h3⟩ := RS.cr h.st x hx
  rw [hi] at h1
  exact ⟨m, h1, by have : m.attempts = x.attempts := by rw [← h2]; rfl
                   omega, hm m h1, h3⟩

theorem Pends.of {q : QInner} {a : Q} {used : Id → Prop} (h : RQ q a used) {id : Id} {n D : Nat} (hw : Near id n D a)
    (hm : ∀ m, mget q.state.registry id = some m → MsgI D m) : Pends q id n D := by
  rcases hw with hw | ⟨e, he, hi, hD, ha⟩
  · exact (Frees.of h hw hm).pends
  · obtain ⟨m, h1, h2, h3⟩ := RS.cf h.st e he
    simp only [hi] at h1
    refine ⟨m, h1, by have : m.attempts = e.2.attempts := by rw [← h2]; rfl
                      omega, hm m h1, fun ts hts => ?_⟩
    rw [h3] at hts
    injection hts with hts
    omega

/-- The stored clock reading of one message. -/
theorem msgI_step {q : QInner} {a : Q} {used : Id → Prop} (h : RQ q a used) {T D : Nat} (hg : RegI T (mget q.state.registry)) {id : Id}
    (hm : ∀ m, mget q.state.registry id = some m → MsgI D m) (o : Op) (hok : o.ok) (hf : ∀ i ∈ o.pushId, ¬ used i) :
    ∀ m, mget (step q o).1.state.registry id = some m → MsgI D m := by
  have h0 : RegIF (fun i => if i = id then D else T) (mget q.state.registry) := by
    intro i m hi
    show MsgI (if i = id then D else T) m
    split
    · next he => subst he; exact hm m hi
    · exact hg i m hi
  intro m hm'
  have := RegIF.step h h0 o hok hf id m hm'
  simpa using this

theorem Pends.msgI {q : QInner} {id : Id} {n D : Nat} (h : Pends q id n D) : ∀ m, mget q.state.registry id = some m → MsgI D m := by
  obtain ⟨m, h1, _, h3, _⟩ := h
  intro m' hm'
  rw [h1] at hm'
  injection hm' with hm'
  subst hm'; exact h3

/-- The clock that a handout reads. -/
def handoutAt : Op → Option Nat
  | .pop now => some now
  | .consume _ now => some now
  | _ => none

theorem Pends.step {q : QInner} {a : Q} {used : List Id} (h : RQ q a (· ∈ used)) {T : Nat} (hg : RegI T (mget q.state.registry)) {id : Id} {n D : Nat}
    (hp : Pends q id n D) (hn : n < q.cfg.maxRetries) {o : Op} (hok : o.ok) (hf : ∀ i ∈ o.pushId, i ∉ used) (h1 : o ≠ .ack id)
    (hc : ∀ t, handoutAt o = some t → id ∈ (step q o).2.1.delivered → t + q.cfg.visibilityTimeout ≤ D) :
    Pends (step q o).1 id (n + if id ∈ (step q o).2.1.delivered then 1 else 0) D := by
  obtain ⟨s1, _, s3⟩ := h.stepU hok hf
  refine Pends.of s1 ?_ (msgI_step h hg hp.msgI o hok hf)
  rw [s3] at hc ⊢
  refine Spec.Queue.Near.step h.view.distinct (hp.near h) hn ?_ ?_
  · intro he; cases o <;> simp only [Op.req, reduceCtorEq, Spec.Queue.Req.ack.injEq] at he
    subst he; exact h1 rfl
  · intro t ht hm
    refine hc t ?_ hm
    rcases ht with ht | ⟨k, ht⟩ <;> cases o <;> simp [Op.req] at ht
    · subst ht; rfl
    · rw [ht.2]; rfl

theorem Frees.step {q : QInner} {a : Q} {used : List Id} (h : RQ q a (· ∈ used)) {T : Nat} (hg : RegI T (mget q.state.registry)) {id : Id} {n D : Nat}
    (hp : Frees q id n D) (hn : n < q.cfg.maxRetries) {o : Op} (hok : o.ok) (hf : ∀ i ∈ o.pushId, i ∉ used) (h1 : o ≠ .ack id)
    (h2 : id ∉ (step q o).2.1.delivered) : Frees (step q o).1 id n D := by
  obtain ⟨s1, _, s3⟩ := h.stepU hok hf
  refine Frees.of s1 ?_ (msgI_step h hg hp.pends.msgI o hok hf)
  rw [s3] at h2
  refine Spec.Queue.Waits.step h.view.distinct (hp.waits h) hn ?_ h2
  intro he; cases o <;> simp only [Op.req, reduceCtorEq, Spec.Queue.Req.ack.injEq] at he
  subst he; exact h1 rfl

theorem Pends.tick {q : QInner} {a : Q} {used : List Id} (h : RQ q a (· ∈ used)) {T : Nat} (hg : RegI T (mget q.state.registry)) {id : Id} {n D t t' : Nat}
    (hp : Pends q id n D) (hn : n < q.cfg.maxRetries) (ht : D ≤ t) (ht' : D ≤ t') : Frees (Queue.step q (.tick t t')).1 id n D := by
  obtain ⟨s1, _, _⟩ := h.stepU (op := .tick t t') trivial (by simp [Op.pushId])
  exact Frees.of s1 (Spec.Queue.Near.tick (hp.near h) hn ht ht') (msgI_step h hg hp.msgI _ trivial (by simp [Op.pushId]))

/-! ## In the table -/

/-- The entry of such a message in the tables. -/
def Listed (n D : Nat) (e : Option Row × Option DlqMsg) : Prop := ∃ r, e = (some r, none) ∧ r.attempts ≤ n ∧ (r.visibleAt ≤ D ∨ r.attempts = 0)

theorem Listed.mono {n n' D : Nat} {e : Option Row × Option DlqMsg} (h : Listed n D e) (hn : n ≤ n') : Listed n' D e := by
  obtain ⟨r, h1, h2, h3⟩ := h
  exact ⟨r, h1, by omega, h3⟩

theorem Pends.entry {q : QInner} {a : Q} {used : Id → Prop} (h : RQ q a used) {id : Id} {n D : Nat} (hw : Pends q id n D) {db : DB} (hr : DBR q db) :
    Listed n D (Verif.Queue.entry db id) := by
  obtain ⟨m, h1, h2, h3, h4⟩ := hw
  refine ⟨m.row, ?_, h2, ?_⟩
  · unfold Verif.Queue.entry
    rw [hr.main.eq, h1, hr.dlq]
    congr 1
    rw [mget_eq_none]
    intro hm
    rw [h.disj id hm] at h1; cases h1
  · show m.visibleAt ≤ D ∨ m.attempts = 0
    unfold MsgI at h3
    split at h3
    · exact h3
    · next ts hts => exact .inl (by rw [h3.1]; exact h4 ts hts)

/-- The message has to come again, and would after a crash at any point; if `free`, it waits. -/
structure Owed (s : Sys) (id : Id) (n D : Nat) (free : Prop) : Prop where
  now : Pends s.q id n D
  free : free → Frees s.q id n D
  kept : ∀ k, Listed n D (entry (execAll s.db (s.pending.take k)) id)

theorem Owed.written {s : Sys} {used : Id → Prop} (hi : SysInv s used) {id : Id} {n D : Nat} (hw : Pends s.q id n D)
    (hp : ∀ op ∈ s.pending, touches id op = false) : Owed s id n D False := by
  obtain ⟨a, ha⟩ := hi.q
  refine ⟨hw, False.elim, fun k => ?_⟩
  rw [entry_execAll_ne _ (take_untouched hp k)]
  have := hw.entry ha hi.agree
  rwa [entry_execAll_ne _ (untouched hp)] at this

/-- What an operation does to the table. -/
theorem listed_op {s : Sys} {used : List Id} (hi : SysInv s (· ∈ used)) {id : Id} {n n' D : Nat} (hk : ∀ k, Listed n D (entry (execAll s.db (s.pending.take k)) id))
    {o : Op} (hok : o.ok) (hf : ∀ i ∈ o.pushId, i ∉ used) (hn : n ≤ n') (hw : Pends (Queue.step s.q o).1 id n' D) :
    ∀ k, Listed n' D (entry (execAll (s.step (.op o)).1.db ((s.step (.op o)).1.pending.take k)) id) := by
  obtain ⟨a, ha⟩ := hi.q
  have hi' := hi.op o hok hf
  obtain ⟨a', ha'⟩ := hi'.q
  have hfull := Pends.entry ha' (id := id) hw hi'.agree
  intro k
  show Listed n' D (entry (execAll s.db ((s.pending ++ (Queue.step s.q o).2.2).take k)) id)
  rw [List.take_append, execAll_append]
  by_cases hk' : k ≤ s.pending.length
  · have : k - s.pending.length = 0 := by omega
    rw [this, List.take_zero]
    exact (hk k).mono hn
  · have : s.pending.take k = s.pending := List.take_of_length_le (by omega)
    rw [this]
    rcases entry_prefix (step_touch ha o hok id) (execAll s.db s.pending) (k - s.pending.length) with h4 | h4
    · rw [h4]
      have := hk s.pending.length
      rw [List.take_length] at this
      exact this.mono hn
    · rw [h4, ← execAll_append]
      exact hfull

theorem Owed.commit {s : Sys} {id : Id} {n D : Nat} {free : Prop} (h : Owed s id n D free) (k : Nat) : Owed (s.step (.commit k)).1 id n D free := by
  refine ⟨h.now, h.free, fun m => ?_⟩
  show Listed n D (entry (execAll (execAll s.db (s.pending.take k)) ((s.pending.drop k).take m)) id)
  rw [← execAll_append, ← List.take_add]
  exact h.kept (k + m)

theorem Owed.restart {s : Sys} {used : Id → Prop} (hi : SysInv s used) {id : Id} {n D : Nat} {free : Prop} (h : Owed s id n D free) (now : Nat) :
    Owed (s.step (.restart now)).1 id n D (D ≤ now) := by
  obtain ⟨r, hr, h0, h1⟩ := h.kept 0
  have he : entry s.db id = (some r, none) := by simpa [execAll] using hr
  have hg : mget (s.step (.restart now)).1.q.state.registry id = some (loadRow now id r) := by
    show mget (recover s.q.cfg now s.db).state.registry id = _
    rw [(RQ.recover hi.db s.q.cfg now).2.2 id, (Prod.mk.inj he).1]; rfl
  have hI : MsgI D (loadRow now id r) := by
    unfold MsgI loadRow
    simp only
    split
    · next h => exact h1
    · next ts h => split at h
                   · next hc => cases h; exact ⟨rfl, hc.2⟩
                   · cases h
  refine ⟨⟨_, hg, h0, hI, ?_⟩, fun hD => ⟨_, hg, h0, hI, ?_⟩, fun m => by have := h.kept 0; simpa [Sys.step] using this⟩
  · intro ts hts
    simp only [loadRow] at hts
    split at hts
    · injection hts with hts; omega
    · cases hts
  · simp only [loadRow]
    rw [if_neg (by omega)]

/-! ## Histories -/

/-- How often the message is handed out in the history `E` after `es`. -/
def tries (id : Id) (c : Config) (es : List Event) : List Event → Nat
  | [] => 0
  | e :: E =>
    (match e with
      | .op o => if id ∈ (Queue.step (eraSys (c, es)).q o).2.1.delivered then 1 else 0
      | _ => 0) + tries id c (es ++ [e]) E

theorem tries_append (id : Id) (c : Config) : ∀ (E F es : List Event), tries id c es (E ++ F) = tries id c es E + tries id c (es ++ E) F := by
  intro E
  induction E with
  | nil => intro F es; simp [tries]
  | cons e E ih => intro F es; simp only [List.cons_append, tries, ih]; simp; omega

/-- Nobody acknowledges the message in the history `E` after `es`, and whoever is handed it has to settle it before `D`. -/
def Unacked (id : Id) (D : Nat) (c : Config) (es E : List Event) : Prop :=
  ∀ E₁ o E₂, E = E₁ ++ .op o :: E₂ → o ≠ .ack id ∧
    ∀ t, handoutAt o = some t → id ∈ (Queue.step (eraSys (c, es ++ E₁)).q o).2.1.delivered → t + c.visibilityTimeout ≤ D

theorem Unacked.left {id : Id} {D : Nat} {c : Config} {es E F : List Event} (h : Unacked id D c es (E ++ F)) : Unacked id D c es E := by
  intro E1 o E2 he
  exact h E1 o (E2 ++ F) (by rw [he]; simp)

theorem Unacked.right {id : Id} {D : Nat} {c : Config} {es E F : List Event} (h : Unacked id D c es (E ++ F)) : Unacked id D c (es ++ E) F := by
  intro E1 o E2 he
  rw [List.append_assoc]
  exact h (E ++ E1) o E2 (by rw [he]; simp)

theorem pends_run {id : Id} {D n : Nat} {c : Config} {es : List Event} (E : List Event) (hv : ValidHist (es ++ E)) (hr : ∀ now, .restart now ∉ E)
    (hu : Unacked id D c es E) (hn : n + tries id c es E < c.maxRetries) (h : Pends (eraSys (c, es)).q id n D) :
    Pends (eraSys (c, es ++ E)).q id (n + tries id c es E) D := by
  induction E using Sdk.snoc_ind with
  | h0 => simpa [tries] using h
  | h1 E e ih =>
    rw [tries_append] at hn ⊢
    rw [← List.append_assoc] at hv ⊢
    have hw := ih hv.left (fun now hm => hr now (List.mem_append_left _ hm)) hu.left (by omega)
    rw [eraSys_snoc]
    cases e with
    | op o =>
      obtain ⟨a, ha⟩ := (sysInv c hv.left).q
      obtain ⟨h1, h2⟩ := hu E o [] rfl
      have hcfg : (eraSys (c, es ++ E)).q.cfg = c := Sys.run_cfg _ _
      have := Pends.step ha (regI c _ hv.left) hw (by rw [show ((Sys.new c).run (es ++ E)).1.q.cfg = c from hcfg]; omega) (hv.1 (.op o) (by simp))
        (fun i hi => hv.right.2 i (by simpa [eventIds] using hi)) h1
        (by rw [show ((Sys.new c).run (es ++ E)).1.q.cfg = c from hcfg]; exact h2)
      simp only [tries, Nat.add_zero, ← Nat.add_assoc]
      exact this
    | commit k =>
      simp only [tries, Nat.add_zero]
      exact hw
    | restart now => exact absurd (by simp) (hr now)

theorem owed_run {id : Id} {D n : Nat} {c : Config} {es : List Event} (E : List Event) (hv : ValidHist (es ++ E))
    (hu : Unacked id D c es E) (hn : n + tries id c es E < c.maxRetries) (h : Owed (eraSys (c, es)) id n D False) :
    Owed (eraSys (c, es ++ E)) id (n + tries id c es E) D False := by
  induction E using Sdk.snoc_ind with
  | h0 => simpa [tries] using h
  | h1 E e ih =>
    rw [tries_append] at hn ⊢
    rw [← List.append_assoc] at hv ⊢
    have hw := ih hv.left hu.left (by omega)
    have hi : SysInv (eraSys (c, es ++ E)) _ := sysInv c hv.left
    rw [eraSys_snoc]
    cases e with
    | op o =>
      obtain ⟨a, ha⟩ := (sysInv c hv.left).q
      obtain ⟨h1, h2⟩ := hu E o [] rfl
      have hcfg : (eraSys (c, es ++ E)).q.cfg = c := Sys.run_cfg _ _
      have hok : o.ok := hv.1 (.op o) (by simp)
      have hf : ∀ i ∈ o.pushId, i ∉ eventIds (es ++ E) := fun i hi => hv.right.2 i (by simpa [eventIds] using hi)
      have := Pends.step ha (regI c _ hv.left) hw.now (by rw [show ((Sys.new c).run (es ++ E)).1.q.cfg = c from hcfg]; omega) hok hf h1
        (by rw [show ((Sys.new c).run (es ++ E)).1.q.cfg = c from hcfg]; exact h2)
      have e : n + (tries id c es E + tries id c (es ++ E) [.op o]) =
          n + tries id c es E + if id ∈ (Queue.step (eraSys (c, es ++ E)).q o).2.1.delivered then 1 else 0 := by
        simp only [tries, Nat.add_zero, ← Nat.add_assoc]
      rw [e]
      exact ⟨this, False.elim, listed_op hi hw.kept hok hf (by omega) this⟩
    | commit k => simpa [tries] using hw.commit k
    | restart now =>
      have := hw.restart hi now
      simp only [tries, Nat.add_zero]
      exact ⟨this.now, False.elim, this.kept⟩

/-- Once it waits it waits: nobody is handed it any more, and the server starts at `D` or later. -/
theorem free_run {id : Id} {D n : Nat} {c : Config} {es : List Event} (E : List Event) (hv : ValidHist (es ++ E)) (hr : ∀ now, .restart now ∈ E → D ≤ now)
    (hu : Unacked id D c es E) (hn : n < c.maxRetries) (h0 : tries id c es E = 0) (h : Owed (eraSys (c, es)) id n D True) :
    Owed (eraSys (c, es ++ E)) id n D True := by
  induction E using Sdk.snoc_ind with
  | h0 => simpa using h
  | h1 E e ih =>
    rw [tries_append] at h0
    rw [← List.append_assoc] at hv ⊢
    have hw := ih hv.left (fun now hm => hr now (List.mem_append_left _ hm)) hu.left (by omega)
    have hi : SysInv (eraSys (c, es ++ E)) _ := sysInv c hv.left
    rw [eraSys_snoc]
    cases e with
    | op o =>
      obtain ⟨a, ha⟩ := (sysInv c hv.left).q
      obtain ⟨h1, h2⟩ := hu E o [] rfl
      have hcfg : (eraSys (c, es ++ E)).q.cfg = c := Sys.run_cfg _ _
      have hok : o.ok := hv.1 (.op o) (by simp)
      have hf : ∀ i ∈ o.pushId, i ∉ eventIds (es ++ E) := fun i hi => hv.right.2 i (by simpa [eventIds] using hi)
      have hnd : id ∉ (Queue.step (eraSys (c, es ++ E)).q o).2.1.delivered := by
        intro hm
        simp only [tries, hm, if_true] at h0
        omega
      have := Frees.step ha (regI c _ hv.left) (hw.free trivial) (by rw [show ((Sys.new c).run (es ++ E)).1.q.cfg = c from hcfg]; exact hn) hok hf h1 hnd
      exact ⟨this.pends, fun _ => this, listed_op hi hw.kept hok hf (Nat.le_refl _) this.pends⟩
    | commit k => exact hw.commit k
    | restart now =>
      have := hw.restart hi now
      exact ⟨this.now, fun _ => this.free (hr now (by simp)), this.kept⟩

/-- The message is available again. -/
def releasesAt (D : Nat) : Event → Prop
  | .op (.tick t t') => D ≤ t ∧ D ≤ t'
  | .restart now => D ≤ now
  | _ => False

theorem Owed.released {id : Id} {D n : Nat} {c : Config} {es : List Event} {e : Event} (hv : ValidHist (es ++ [e])) (hn : n < c.maxRetries)
    (h : Owed (eraSys (c, es)) id n D False) (he : releasesAt D e) : Owed (eraSys (c, es ++ [e])) id n D True := by
  have hi : SysInv (eraSys (c, es)) _ := sysInv c hv.left
  rw [eraSys_snoc]
  unfold releasesAt at he
  split at he
  · next t t' =>
    obtain ⟨a, ha⟩ := (sysInv c hv.left).q
    have := Pends.tick ha (regI c _ hv.left) h.now (by rw [Sys.run_cfg]; exact hn) he.1 he.2
    exact ⟨this.pends, fun _ => this, listed_op hi h.kept trivial (by simp [Op.pushId]) (Nat.le_refl _) this.pends⟩
  · next now =>
    have := h.restart hi now
    exact ⟨this.now, fun _ => this.free he, this.kept⟩
  · cases he

theorem Pends.push {q : QInner} {a : Q} {used : List Id} (h : RQ q a (· ∈ used)) {id : Id} (pl : Bytes) (pr t D : Nat) (hu : id ∉ used) :
    Pends (Queue.step q (.push id pl pr t)).1 id 0 D := by
  obtain ⟨m, h1, h2, h3⟩ := Unserved.push h pl pr t hu
  refine ⟨m, h1, by omega, ?_, fun ts hts => by rw [h2] at hts; cases hts⟩
  unfold MsgI
  rw [h2]; exact .inr h3

/-- A message that was pushed and written before the first crash, that nobody acknowledged and that has deliveries left, is available again once
its timeouts are over, whatever crashes. -/
theorem owed_again {id : Id} {D : Nat} {c : Config} {es E₁ E₂ E₃ : List Event} {e : Event} {pl : Bytes} {pr t : Nat}
    (hv : ValidHist (es ++ [.op (.push id pl pr t)] ++ E₁ ++ E₂ ++ [e] ++ E₃)) (hr : ∀ now, .restart now ∉ E₁)
    (hu : Unacked id D c (es ++ [.op (.push id pl pr t)]) (E₁ ++ E₂ ++ [e] ++ E₃))
    (hn : tries id c (es ++ [.op (.push id pl pr t)]) (E₁ ++ E₂) < c.maxRetries)
    (hw : ∀ op ∈ (eraSys (c, es ++ [.op (.push id pl pr t)] ++ E₁)).pending, touches id op = false)
    (he : releasesAt D e) (h3 : tries id c (es ++ [.op (.push id pl pr t)] ++ E₁ ++ E₂ ++ [e]) E₃ = 0) (hr3 : ∀ now, .restart now ∈ E₃ → D ≤ now) :
    ∃ n, Frees (eraSys (c, es ++ [.op (.push id pl pr t)] ++ E₁ ++ E₂ ++ [e] ++ E₃)).q id n D := by
  have hid : id ∉ eventIds es := hv.left.left.left.left.right.2 id (by simp [eventIds, Op.pushId])
  rw [tries_append] at hn
  obtain ⟨a0, hR0⟩ := (sysInv c hv.left.left.left.left.left).q
  have h0 : Pends (eraSys (c, es ++ [.op (.push id pl pr t)])).q id 0 D := by
    rw [eraSys_snoc]
    exact Pends.push hR0 pl pr t D hid
  have h1 := pends_run E₁ hv.left.left.left hr hu.left.left.left (by omega) h0
  have k1 := Owed.written (sysInv c hv.left.left.left) h1 hw
  have k2 := owed_run E₂ hv.left.left hu.left.left.right (by omega) k1
  have k3 := Owed.released hv.left (by omega) k2 he
  have hu3 : Unacked id D c (es ++ [.op (.push id pl pr t)] ++ E₁ ++ E₂ ++ [e]) E₃ := by
    have := hu.right
    simpa [List.append_assoc] using this
  have k4 := free_run E₃ hv hr3 hu3 (by omega) h3 k3
  exact ⟨_, k4.free trivial⟩

end Verif.Queue
