import Verif.Spec.QueueE2E
import Verif.Proofs.SdkQueue
import Verif.Proofs.QueueCrash
import Verif.Proofs.QueueFaults

/-! # Consumers, network and queue together: invariants -/

namespace Verif.Queue

open Spec.Queue (Q Core)

/-! ## A stored message stays stored -/

/-- Whatever part of the outstanding operations is committed, the message is in one of the tables. -/
def Held (s : Sys) (id : Id) : Prop := ∀ n, entry (execAll s.db (s.pending.take n)) id ≠ (none, none)

theorem place_entry {q : QInner} {a : Q} {used : Id → Prop} (h : RQ q a used) {db : DB} (hr : DBR q db) (id : Id) :
    place q id = .gone ↔ entry db id = (none, none) := by
  rw [place_eq h, entry, hr.main.eq, hr.dlq]
  cases mget q.state.registry id with
  | some m => cases hs : m.state <;> simp [placeOf, hs]
  | none => cases mget q.dlq id <;> simp [placeOf]

theorem Held.place {s : Sys} {id : Id} (h : Held s id) {used : Id → Prop} (hi : SysInv s used) : place s.q id ≠ .gone := by
  obtain ⟨a, ha⟩ := hi.q
  rw [ne_eq, place_entry ha hi.agree]
  have := h s.pending.length
  rwa [List.take_length] at this

theorem Held.committed {s : Sys} {id : Id} {used : Id → Prop} (hi : SysInv s used) (hp : s.pending = []) (h : Queue.place s.q id ≠ .gone) :
    Held s id := by
  obtain ⟨a, ha⟩ := hi.q
  intro n
  rw [ne_eq, place_entry ha hi.agree] at h
  rw [hp] at h ⊢
  simpa using h

theorem Held.step {s : Sys} {id : Id} {used : List Id} (hi : SysInv s (· ∈ used)) (h : Held s id) (e : Event) (hok : e.ok)
    (hf : ∀ i ∈ eventIds [e], i ∉ used) (h1 : e ≠ .op (.ack id)) (h2 : e ≠ .op (.deleteDlq id)) (h3 : e ≠ .op .purgeDlq) :
    Held (s.step e).1 id := by
  cases e with
  | op o =>
    have hf' : ∀ i ∈ o.pushId, i ∉ used := by simpa [eventIds] using hf
    have hi' := hi.op o hok hf'
    obtain ⟨a, ha⟩ := hi.q
    have hpl : Queue.place (s.step (.op o)).1.q id ≠ .gone := by
      have hfr : Fresh used [o] := by
        have hok' : o.ok := hok
        refine ⟨by simpa using hok', ?_, ?_⟩
        · cases o <;> simp [pushIds]
        · intro i hi2
          refine hf' i ?_
          cases o <;> simp_all [pushIds, Op.pushId]
      refine keep_run (ops := [o]) ha hfr (h.place hi) ?_ ?_ ?_
      · intro hh; exact h1 (by rw [List.mem_singleton.1 hh])
      · intro hh; exact h2 (by rw [List.mem_singleton.1 hh])
      · intro hh; exact h3 (by rw [List.mem_singleton.1 hh])
    obtain ⟨a', ha'⟩ := hi'.q
    rw [ne_eq, place_entry ha' hi'.agree] at hpl
    intro n
    show entry (execAll s.db ((s.pending ++ (Queue.step s.q o).2.2).take n)) id ≠ _
    rw [List.take_append, execAll_append]
    by_cases hn : n ≤ s.pending.length
    · have : n - s.pending.length = 0 := by omega
      rw [this, List.take_zero]
      exact h n
    · have : s.pending.take n = s.pending := List.take_of_length_le (by omega)
      rw [this]
      rcases entry_prefix (step_touch ha o hok id) (execAll s.db s.pending) (n - s.pending.length) with h4 | h4
      · rw [h4]
        have := h s.pending.length
        rwa [List.take_length] at this
      · rw [h4, ← execAll_append]
        exact hpl
  | commit n =>
    intro m
    show entry (execAll (execAll s.db (s.pending.take n)) ((s.pending.drop n).take m)) id ≠ _
    rw [← execAll_append, ← List.take_add]
    exact h (n + m)
  | restart now =>
    intro m
    have := h 0
    simpa [Sys.step] using this

theorem Held.run (cfg : Config) {id : Id} {es : List Event} : ∀ es2, ValidHist (es ++ es2) → Held ((Sys.new cfg).run es).1 id →
    .op (.ack id) ∉ es2 → .op (.deleteDlq id) ∉ es2 → .op .purgeDlq ∉ es2 → Held ((Sys.new cfg).run (es ++ es2)).1 id := by
  refine hist_induction ?_ ?_
  · intro _ h _ _ _
    rwa [List.append_nil]
  · intro es2 e ih hv h h1 h2 h3
    rw [← List.append_assoc] at hv ⊢
    rw [Sys.run_append]
    have hi := ih hv.left h (fun hh => h1 (List.mem_append_left _ hh)) (fun hh => h2 (List.mem_append_left _ hh)) (fun hh => h3 (List.mem_append_left _ hh))
    have ne : ∀ {x : Event}, x ∉ es2 ++ [e] → e ≠ x := fun hx hh => hx (by rw [hh]; simp)
    exact Held.step (used := eventIds (es ++ es2)) (sysInv cfg hv.left) hi e (hv.1 e (by simp)) (fun i hii => hv.right.2 i hii) (ne h1) (ne h2) (ne h3)

/-! ## Only what was pushed is in the queue -/

structure SC (P : Core → Prop) (s : Sys) (used : List Id) : Prop where
  q : ∃ a, RQ s.q a (· ∈ used)
  qc : QContent P s.q
  db : ∃ U : Id → Prop, DBI s.db U ∧ Content P s.db ∧ Fits P U s.pending ∧ ∀ i, grown U s.pending i ↔ i ∈ used

theorem SC.init (P : Core → Prop) (cfg : Config) : SC P (Sys.new cfg) [] := by
  obtain ⟨h1, h2, U, h3, h4, h5, h6⟩ := WInv.init P cfg
  exact ⟨h1, h2, U, h3, h4, h5, h6⟩

theorem SC.step {P : Core → Prop} {s : Sys} {used : List Id} (h : SC P s used) (e : Event)
    (hok : ∀ o, e = .op o → o.ok ∧ (∀ id ∈ o.pushId, id ∉ used) ∧ ∀ c ∈ o.pushCore, P c) : SC P (s.step e).1 (used ++ eventIds [e]) := by
  obtain ⟨⟨a, hq⟩, hqc, U, hdb, hcon, hfit, hgr⟩ := h
  cases e with
  | op o =>
    obtain ⟨h1, h2, h3⟩ := hok o rfl
    have hids : eventIds [.op o] = o.pushId := by simp [eventIds]
    rw [hids]
    obtain ⟨f1, f2⟩ := step_fits (P := P) hq hqc o h2 h3
    refine ⟨⟨_, (hq.stepU h1 h2).1⟩, step_content hq hqc o h1 h2 h3, U, hdb, hcon, ?_, ?_⟩
    · exact hfit.append (f1.congr (fun i => (hgr i).symm))
    · intro i
      show grown U (s.pending ++ (Verif.Queue.step s.q o).2.2) i ↔ _
      rw [← grown_append]
      simp only [grown] at f2 hgr ⊢
      rw [hgr, List.mem_append]
      exact f2 i
  | commit n =>
    rw [show eventIds [.commit n] = [] from rfl, List.append_nil]
    rw [← List.take_append_drop n s.pending] at hfit hgr
    obtain ⟨f1, f2⟩ := hfit.split
    obtain ⟨g1, g2⟩ := faults_step (s.pending.take n) [] hdb hcon f1
    rw [execFaults_clean _ _ _ rfl] at g1 g2
    exact ⟨⟨a, hq⟩, hqc, _, g1, g2, f2, fun i => (grown_append U _ _ i).trans (hgr i)⟩
  | restart now =>
    rw [show eventIds [.restart now] = [] from rfl, List.append_nil]
    have hdb' : DBI s.db (· ∈ used) := hdb.mono (fun i hi => (hgr i).1 (Or.inl hi))
    obtain ⟨r1, _, _⟩ := RQ.recover hdb' s.q.cfg now
    exact ⟨⟨_, r1⟩, recover_content hdb' hcon _ _, (· ∈ used), hdb', hcon, trivial, fun i => by simp [grown, Sys.step]⟩

theorem SC.run (P : Core → Prop) (cfg : Config) : ∀ es, ValidHist es → (∀ o, .op o ∈ es → ∀ c ∈ o.pushCore, P c) →
    SC P ((Sys.new cfg).run es).1 (eventIds es) := by
  refine hist_induction ?_ ?_
  · intro _ _; exact SC.init P cfg
  · intro es e ih hv hp
    rw [Sys.run_append, eventIds_append]
    refine (ih hv.left (fun o ho => hp o (List.mem_append_left _ ho))).step e ?_
    intro o ho
    subst ho
    refine ⟨hv.1 (.op o) (by simp), fun i hi => hv.right.2 i (by simpa [eventIds] using hi), fun c hc => hp o (by simp) c hc⟩

end Verif.Queue

namespace Verif.QueueE2E

open Verif.Queue (Id Msg Config Sys Op)
open Verif.Sdk.QueueLoop (Loop Ev inProgress todo)

variable (o : Options)

theorem run_append (s : Net) (a b : List Event) : s.run o (a ++ b) = (s.run o a).run o b := by
  induction a generalizing s with
  | nil => rfl
  | cons e a ih => exact ih _

theorem run_snoc (s : Net) (a : List Event) (e : Event) : s.run o (a ++ [e]) = (s.run o a).step o e := by
  rw [run_append]; rfl

theorem calls_snoc (s : Net) (a : List Event) (e : Event) : calls o s (a ++ [e]) = calls o s a ++ callsBy o (s.run o a) e := by
  induction a generalizing s with
  | nil => simp [calls, Net.run]
  | cons x a ih => simp only [List.cons_append, calls, ih, List.append_assoc]; rfl

theorem processed_append (s : Net) (a b : List Event) : processed o s (a ++ b) = processed o s a ++ processed o (s.run o a) b := by
  induction a generalizing s with
  | nil => rfl
  | cons x a ih => simp only [List.cons_append, processed, ih, List.append_assoc]; rfl

theorem processed_snoc (s : Net) (a : List Event) (e : Event) : processed o s (a ++ [e]) = processed o s a ++ doneBy (s.run o a) e := by
  rw [processed_append]; simp [processed]

/-- A step of a client other than the arrival of a batch, which is `receive`. -/
theorem step_client (s : Net) (k : Nat) {e : Ev} (h : ∀ ms, e ≠ .delivered ms) (r : Str) :
    s.step o (.client k e r) = clientStep o s k e r := by
  cases e <;> first | rfl | exact absurd rfl (h _)

/-! ## The server's part of a history -/

def serverEvent (s : Net) : Event → List Queue.Event
  | .exec i now => match s.requests[i]? with | some q => [.op (q.op o now)] | none => []
  | .op x => [.op x]
  | .commit n => [.commit n]
  | .restart now => [.restart now]
  | _ => []

def serverEvents (s : Net) : List Event → List Queue.Event
  | [] => []
  | e :: es => serverEvent o s e ++ serverEvents (s.step o e) es

theorem serverEvents_append (s : Net) (a b : List Event) : serverEvents o s (a ++ b) = serverEvents o s a ++ serverEvents o (s.run o a) b := by
  induction a generalizing s with
  | nil => rfl
  | cons x a ih => simp only [List.cons_append, serverEvents, ih, List.append_assoc]; rfl

theorem serverEvents_snoc (s : Net) (a : List Event) (e : Event) : serverEvents o s (a ++ [e]) = serverEvents o s a ++ serverEvent o (s.run o a) e := by
  rw [serverEvents_append]; simp [serverEvents]

theorem execStep_server (s : Net) (q : Request) (now : Nat) : (execStep o s q now).server = (s.server.step (.op (q.op o now))).1 := by
  cases q <;> rfl

theorem receiveStep_fields (s : Net) (a : Answer) (ok : Bool) : (receiveStep o s a ok).server = s.server ∧
    (receiveStep o s a ok).requests = s.requests ∧ (receiveStep o s a ok).answers = s.answers ∧
    (receiveStep o s a ok).deliveries = s.deliveries := by
  unfold receiveStep
  simp only
  split <;> exact ⟨rfl, rfl, rfl, rfl⟩

theorem server_step (s : Net) (e : Event) : (s.step o e).server = (s.server.run (serverEvent o s e)).1 := by
  cases e with
  | client k e r => cases e <;> rfl
  | exec i now =>
    simp only [Net.step, serverEvent]
    cases s.requests[i]? with
    | none => rfl
    | some q => simp only [execStep_server]; rfl
  | receive i ok =>
    simp only [Net.step, serverEvent]
    cases s.answers[i]? with
    | none => rfl
    | some a => exact (receiveStep_fields o _ a ok).1
  | _ => rfl

theorem server_run (s : Net) (es : List Event) : (s.run o es).server = (s.server.run (serverEvents o s es)).1 := by
  induction es generalizing s with
  | nil => rfl
  | cons e es ih => rw [serverEvents, Queue.Sys.run_append, ← server_step]; exact ih _

theorem op_pushId (q : Request) (now : Nat) : (q.op o now).pushId = [] := by cases q <;> rfl

theorem eventIds_server (s : Net) (es : List Event) : Queue.eventIds (serverEvents o s es) = pushIds es := by
  induction es generalizing s with
  | nil => rfl
  | cons e es ih =>
    rw [serverEvents, Queue.eventIds_append, ih]
    cases e with
    | exec i now =>
      simp only [serverEvent, pushIds]
      cases s.requests[i]? with
      | none => rfl
      | some q => simp [Queue.eventIds, op_pushId]
    | op x => simp [serverEvent, pushIds, Queue.eventIds]
    | _ => rfl

theorem pushIds_append (a b : List Event) : pushIds (a ++ b) = pushIds a ++ pushIds b := by
  induction a with
  | nil => rfl
  | cons e a ih => cases e <;> simp [pushIds, ih]

theorem mem_server {s : Net} {es : List Event} {x : Op} (h : .op x ∈ serverEvents o s es) :
    .op x ∈ es ∨ ∃ a i now b q, es = a ++ .exec i now :: b ∧ (s.run o a).requests[i]? = some q ∧ x = q.op o now := by
  induction es generalizing s with
  | nil => cases h
  | cons e es ih =>
    rw [serverEvents] at h
    rcases List.mem_append.1 h with h | h
    · cases e with
      | exec i now =>
        simp only [serverEvent] at h
        cases hq : s.requests[i]? with
        | none => rw [hq] at h; cases h
        | some q =>
          rw [hq] at h
          simp only [List.mem_singleton, Queue.Event.op.injEq] at h
          exact .inr ⟨[], i, now, es, q, rfl, hq, h⟩
      | op y => simp only [serverEvent, List.mem_singleton, Queue.Event.op.injEq] at h; subst h; exact .inl (by simp)
      | commit n => simp [serverEvent] at h
      | restart n => simp [serverEvent] at h
      | client => cases h
      | loseRequest => cases h
      | loseAnswer => cases h
      | receive => cases h
    · rcases ih h with h | ⟨a, i, now, b, q, h1, h2, h3⟩
      · exact .inl (List.mem_cons_of_mem _ h)
      · exact .inr ⟨e :: a, i, now, b, q, by rw [h1]; rfl, h2, h3⟩

theorem restart_server {s : Net} {es : List Event} {now : Nat} (h : .restart now ∈ serverEvents o s es) : .restart now ∈ es := by
  induction es generalizing s with
  | nil => cases h
  | cons e es ih =>
    rw [serverEvents] at h
    rcases List.mem_append.1 h with h | h
    · cases e with
      | exec i now =>
        simp only [serverEvent] at h
        cases hq : s.requests[i]? <;> rw [hq] at h <;> simp at h
      | op y => simp [serverEvent] at h
      | commit n => simp [serverEvent] at h
      | restart n => simp [serverEvent] at h; simp [h]
      | client => cases h
      | loseRequest => cases h
      | loseAnswer => cases h
      | receive => cases h
    · exact List.mem_cons_of_mem _ (ih h)

theorem Valid.server {es : List Event} (hv : Valid o es) (s : Net) : Queue.ValidHist (serverEvents o s es) := by
  refine ⟨?_, by rw [eventIds_server]; exact hv.2.2⟩
  intro e he
  cases e with
  | op x =>
    rcases mem_server o he with h | ⟨a, i, now, b, q, h1, h2, h3⟩
    · exact hv.2.1 x h
    · subst h3
      cases q with
      | consume k no => exact hv.1 k
      | ack => trivial
      | nack => trivial
  | commit => trivial
  | restart => trivial

theorem Valid.left {a b : List Event} (hv : Valid o (a ++ b)) : Valid o a :=
  ⟨hv.1, fun x hx => hv.2.1 x (List.mem_append_left _ hx), by have := hv.2.2; rw [pushIds_append] at this; exact (List.nodup_append.1 this).1⟩

/-! ## Acknowledgements come from finished callbacks -/

theorem ack_sent {s : Net} {k : Nat} {e : Ev} {r : Str} {id : Id}
    (h0 : .ack id ∈ (Sdk.QueueLoop.step (o.concurrency k) (s.clients k).loop e).2.flatMap (sends s.deliveries k s.nextNo r)) :
    id ∈ doneBy s (.client k e r) := by
  obtain ⟨x, hx, h⟩ := List.mem_flatMap.1 h0
  cases x with
  | ack m =>
    obtain ⟨h1, h2⟩ := Sdk.QueueLoop.ack_event _ hx
    subst h2
    simp only [sends, List.mem_map] at h
    obtain ⟨y, hy, h⟩ := h
    cases h
    simp only [doneBy, h1, if_true, List.mem_map]
    exact ⟨y, hy, rfl⟩
  | nack m =>
    simp only [sends, List.mem_map] at h
    obtain ⟨y, hy, h⟩ := h
    cases h
  | consume => simp [sends] at h
  | call => simp [sends] at h
  | finished => simp [sends] at h

/-- The requests on their way after a step were on their way before, or a client sends them. -/
theorem mem_requests {s : Net} {e : Event} {id : Id} (h : .ack id ∈ (s.step o e).requests) :
    .ack id ∈ s.requests ∨ id ∈ doneBy s e := by
  cases e with
  | client k e r =>
    by_cases hd : ∃ ms, e = .delivered ms
    · obtain ⟨ms, rfl⟩ := hd; exact .inl h
    · rw [step_client o s k (fun ms hm => hd ⟨ms, hm⟩)] at h
      rcases List.mem_append.1 h with h | h
      · exact .inl h
      · exact .inr (ack_sent o h)
  | exec i now =>
    left
    simp only [Net.step] at h
    cases hq : s.requests[i]? with
    | none => rw [hq] at h; exact h
    | some q => rw [hq] at h; cases q <;> exact List.mem_of_mem_eraseIdx h
  | loseRequest i => exact .inl (List.mem_of_mem_eraseIdx h)
  | receive i ok =>
    left
    simp only [Net.step] at h
    cases hq : s.answers[i]? with
    | none => rw [hq] at h; exact h
    | some a => rw [hq] at h; rw [(receiveStep_fields o _ a ok).2.1] at h; exact h
  | loseAnswer i => exact .inl h
  | op x => exact .inl h
  | commit n => exact .inl h
  | restart n => exact .inl h

theorem requests_processed (cfg : Config) (es : List Event) {id : Id} (h : .ack id ∈ ((Net.new cfg).run o es).requests) :
    id ∈ processed o (Net.new cfg) es := by
  induction es using Verif.Sdk.snoc_ind with
  | h0 => cases h
  | h1 es e ih =>
    rw [run_snoc] at h
    rw [processed_snoc]
    rcases mem_requests o h with h | h
    · exact List.mem_append_left _ (ih h)
    · exact List.mem_append_right _ h

theorem acks_processed (cfg : Config) {es : List Event} {id : Id} (h : .op (.ack id) ∈ serverEvents o (Net.new cfg) es) :
    id ∈ processed o (Net.new cfg) es ∨ .op (.ack id) ∈ es := by
  rcases mem_server o h with h | ⟨a, i, now, b, q, h1, h2, h3⟩
  · exact .inr h
  · left
    cases q with
    | consume => cases h3
    | nack => cases h3
    | ack j =>
      cases h3
      rw [h1, processed_append]
      exact List.mem_append_left _ (requests_processed o cfg a (List.mem_of_getElem? h2))

/-! ## Every delivery is in one place -/

/-- The numbers of the deliveries: `A` on their way to a client, `T k` received by client `k` and not taken by a worker, `C`
those the callback was called with; `n` have been given out. -/
structure Tok (A : List Nat) (T : Nat → List Nat) (C : List Nat) (n : Nat) : Prop where
  a : A.Nodup
  t : ∀ k, (T k).Nodup
  tt : ∀ k j, k ≠ j → ∀ m ∈ T k, m ∉ T j
  ta : ∀ k, ∀ m ∈ T k, m ∉ A
  c : C.Nodup
  ca : ∀ m ∈ C, m ∉ A
  ct : ∀ m ∈ C, ∀ k, m ∉ T k
  an : ∀ m ∈ A, m < n
  tn : ∀ k, ∀ m ∈ T k, m < n
  cn : ∀ m ∈ C, m < n

theorem Tok.mono {A A' C : List Nat} {T T' : Nat → List Nat} {n n' : Nat} (h : Tok A T C n) (hA : A'.Sublist A)
    (hT : ∀ k, (T' k).Sublist (T k)) (hn : n ≤ n') : Tok A' T' C n' where
  a := hA.nodup h.a
  t k := (hT k).nodup (h.t k)
  tt k j hkj m hm hj := h.tt k j hkj m ((hT k).subset hm) ((hT j).subset hj)
  ta k m hm ha := h.ta k m ((hT k).subset hm) (hA.subset ha)
  c := h.c
  ca m hm ha := h.ca m hm (hA.subset ha)
  ct m hm k hk := h.ct m hm k ((hT k).subset hk)
  an m hm := Nat.lt_of_lt_of_le (h.an m (hA.subset hm)) hn
  tn k m hm := Nat.lt_of_lt_of_le (h.tn k m ((hT k).subset hm)) hn
  cn m hm := Nat.lt_of_lt_of_le (h.cn m hm) hn

theorem Tok.call {A C : List Nat} {T T' : Nat → List Nat} {n k m : Nat} (h : Tok A T C n) (hk : T k = m :: T' k)
    (hT : ∀ j, j ≠ k → T' j = T j) : Tok A T' (C ++ [m]) n := by
  have hs : ∀ j, (T' j).Sublist (T j) := by
    intro j
    by_cases hj : j = k
    · subst hj; rw [hk]; exact List.sublist_cons_self _ _
    · rw [hT j hj]; exact List.Sublist.refl _
  have h' := h.mono (List.Sublist.refl _) hs (Nat.le_refl _)
  have hm : m ∈ T k := by rw [hk]; simp
  have hmT : ∀ j, m ∉ T' j := by
    intro j hj
    by_cases e : j = k
    · subst e
      have := h.t j
      rw [hk, List.nodup_cons] at this
      exact this.1 hj
    · rw [hT j e] at hj
      exact h.tt k j (fun hh => e hh.symm) m hm hj
  refine { h' with c := ?_, ca := ?_, ct := ?_, cn := ?_ }
  · rw [List.nodup_append]
    refine ⟨h.c, by simp, ?_⟩
    intro x hx y hy hxy
    rw [List.mem_singleton.1 hy] at hxy
    subst hxy
    exact h.ct x hx k hm
  · intro x hx
    rcases List.mem_append.1 hx with hx | hx
    · exact h.ca x hx
    · rw [List.mem_singleton.1 hx]; exact h.ta k m hm
  · intro x hx j
    rcases List.mem_append.1 hx with hx | hx
    · exact h'.ct x hx j
    · rw [List.mem_singleton.1 hx]; exact hmT j
  · intro x hx
    rcases List.mem_append.1 hx with hx | hx
    · exact h.cn x hx
    · rw [List.mem_singleton.1 hx]; exact h.tn k m hm

theorem Tok.hand {A C : List Nat} {T : Nat → List Nat} {n : Nat} (h : Tok A T C n) (j : Nat) :
    Tok (A ++ List.range' n j) T C (n + j) := by
  have h' := h.mono (List.Sublist.refl _) (fun k => List.Sublist.refl _) (Nat.le_add_right n j)
  have hr : ∀ m, m ∈ List.range' n j → n ≤ m ∧ m < n + j := by
    intro m hm
    have := List.mem_range'.1 hm
    omega
  refine { h' with a := ?_, ta := ?_, ca := ?_, an := ?_ }
  · rw [List.nodup_append]
    refine ⟨h.a, List.nodup_range', ?_⟩
    intro x hx y hy hxy
    have := h.an x hx
    have := hr y hy
    omega
  · intro k m hm ha
    rcases List.mem_append.1 ha with ha | ha
    · exact h.ta k m hm ha
    · have := h.tn k m hm
      have := hr m ha
      omega
  · intro m hm ha
    rcases List.mem_append.1 ha with ha | ha
    · exact h.ca m hm ha
    · have := h.cn m hm
      have := hr m ha
      omega
  · intro m hm
    rcases List.mem_append.1 hm with hm | hm
    · exact Nat.lt_of_lt_of_le (h.an m hm) (Nat.le_add_right _ _)
    · exact (hr m hm).2

theorem Tok.arrive {A A' C ms : List Nat} {T T' : Nat → List Nat} {n k : Nat} (h : Tok A T C n) (hA : A.Perm (ms ++ A'))
    (hk : T k = []) (hk' : T' k = ms) (hT : ∀ j, j ≠ k → T' j = T j) : Tok A' T' C n := by
  have hn := hA.nodup_iff.1 h.a
  have hin : ∀ m ∈ ms, m ∈ A := fun m hm => hA.mem_iff.2 (List.mem_append_left _ hm)
  have hin' : ∀ m ∈ A', m ∈ A := fun m hm => hA.mem_iff.2 (List.mem_append_right _ hm)
  rw [List.nodup_append] at hn
  refine ⟨hn.2.1, ?_, ?_, ?_, h.c, fun m hm ha => h.ca m hm (hin' m ha), ?_, fun m hm => h.an m (hin' m hm), ?_, h.cn⟩
  · intro j
    by_cases hj : j = k
    · rw [hj, hk']; exact hn.1
    · rw [hT j hj]; exact h.t j
  · intro i j hij m hm hmj
    by_cases hi : i = k
    · have hj : j ≠ k := fun hh => hij (hi.trans hh.symm)
      rw [hi, hk'] at hm
      rw [hT j hj] at hmj
      exact h.ta j m hmj (hin m hm)
    · rw [hT i hi] at hm
      by_cases hj : j = k
      · rw [hj, hk'] at hmj
        exact h.ta i m hm (hin m hmj)
      · rw [hT j hj] at hmj
        exact h.tt i j hij m hm hmj
  · intro i m hm ha
    by_cases hi : i = k
    · rw [hi, hk'] at hm
      exact hn.2.2 m hm m ha rfl
    · rw [hT i hi] at hm
      exact h.ta i m hm (hin' m ha)
  · intro m hm i hi
    by_cases e : i = k
    · rw [e, hk'] at hi
      exact h.ca m hm (hin m hi)
    · rw [hT i e] at hi
      exact h.ct m hm i hi
  · intro i m hm
    by_cases e : i = k
    · rw [e, hk'] at hm
      exact h.an m (hin m hm)
    · rw [hT i e] at hm
      exact h.tn i m hm

/-- The numbers of the deliveries the callback is called with in a step. -/
def nosBy (s : Net) : Event → List Nat
  | .client _ (.delivered _) _ => []
  | .client k e _ => Sdk.QueueLoop.called (Sdk.QueueLoop.step (o.concurrency k) (s.clients k).loop e).2
  | _ => []

def nos (s : Net) : List Event → List Nat
  | [] => []
  | e :: es => nosBy o s e ++ nos (s.step o e) es

theorem nos_snoc (s : Net) (a : List Event) (e : Event) : nos o s (a ++ [e]) = nos o s a ++ nosBy o (s.run o a) e := by
  induction a generalizing s with
  | nil => simp [nos, Net.run]
  | cons x a ih => simp only [List.cons_append, nos, ih, List.append_assoc]; rfl

def NTok (s : Net) (C : List Nat) : Prop :=
  Tok (s.answers.flatMap (·.msgs)) (fun k => todo (s.clients k).loop) C s.deliveries.length

theorem flatMap_erase {l : List Answer} {i : Nat} {a : Answer} (h : l[i]? = some a) :
    (l.flatMap (·.msgs)).Perm (a.msgs ++ (l.eraseIdx i).flatMap (·.msgs)) := by
  induction l generalizing i with
  | nil => simp at h
  | cons x l ih =>
    cases i with
    | zero =>
      simp only [List.getElem?_cons_zero, Option.some.injEq] at h
      subst h
      simp
    | succ i =>
      simp only [List.getElem?_cons_succ] at h
      simp only [List.flatMap_cons, List.eraseIdx_cons_succ]
      refine ((ih h).append_left x.msgs).trans ?_
      rw [← List.append_assoc, ← List.append_assoc]
      exact List.perm_append_comm.append_right _

theorem flatMap_sub (l : List Answer) (i : Nat) : ((l.eraseIdx i).flatMap (·.msgs)).Sublist (l.flatMap (·.msgs)) := by
  induction l generalizing i with
  | nil => simp
  | cons x l ih =>
    cases i with
    | zero => simp only [List.eraseIdx_cons_zero, List.flatMap_cons]; exact List.sublist_append_right _ _
    | succ i => simp only [List.eraseIdx_cons_succ, List.flatMap_cons]; exact (ih i).append_left _

theorem put_same (f : Nat → Client) (k : Nat) (c : Client) : put f k c k = c := by simp [put]
theorem put_ne (f : Nat → Client) {k j : Nat} (c : Client) (h : j ≠ k) : put f k c j = f j := by simp [put, h]

/-- A step of a loop that brings no messages. -/
theorem NTok.loop {s : Net} {C : List Nat} (h : NTok s C) {k c : Nat} {e : Ev} (he : Sdk.QueueLoop.brings (s.clients k).loop e = [])
    {w : Option Nat} {rq : List Request} {nn : Nat} :
    NTok { s with clients := put s.clients k { loop := (Sdk.QueueLoop.step c (s.clients k).loop e).1, waiting := w }, requests := rq, nextNo := nn }
      (C ++ Sdk.QueueLoop.called (Sdk.QueueLoop.step c (s.clients k).loop e).2) := by
  have hm := Sdk.QueueLoop.move c (s.clients k).loop e
  generalize ho : (Sdk.QueueLoop.step c (s.clients k).loop e).2 = os at hm
  generalize hl : (Sdk.QueueLoop.step c (s.clients k).loop e).1 = l at hm
  have same : ∀ {T : Nat → List Nat}, (todo l).Sublist (todo (s.clients k).loop) →
      NTok { s with clients := put s.clients k { loop := l, waiting := w }, requests := rq, nextNo := nn } C := by
    intro _ hs
    refine Tok.mono h (List.Sublist.refl _) ?_ (Nat.le_refl _)
    intro j
    by_cases hj : j = k
    · subst hj; simpa only [put_same] using hs
    · simpa only [put_ne _ _ hj] using List.Sublist.refl _
  have same := same (T := fun _ => [])
  cases hm with
  | bring ms _ hs hp h1 h2 h3 =>
    simp only [Sdk.QueueLoop.brings, hp] at he
    subst he
    rw [Sdk.QueueLoop.called, List.append_nil]
    exact same (by rw [h1]; exact List.nil_sublist _)
  | call m up _ ha h1 h2 h3 =>
    refine Tok.call h (k := k) (by simpa only [put_same] using h1) ?_
    intro j hj
    simp only [put_ne _ _ hj]
  | skip m up _ ha h1 h2 h3 =>
    have : Sdk.QueueLoop.called (if up then [Sdk.QueueLoop.Out.nack m] else []) = [] := by cases up <;> rfl
    rw [this, List.append_nil]
    exact same (by rw [h1]; exact List.sublist_cons_self _ _)
  | ret m ok up _ hm h1 h2 h3 =>
    have : Sdk.QueueLoop.called (if up then (if ok then [Sdk.QueueLoop.Out.ack m] else [.nack m]) else []) = [] := by cases up <;> cases ok <;> rfl
    rw [this, List.append_nil]
    exact same (by rw [h1]; exact List.Sublist.refl _)
  | other _ _ _ hb h1 h2 h3 h4 =>
    have : Sdk.QueueLoop.called os = [] := by
      rcases h3 with h3 | ⟨h3, _⟩ | ⟨h3, _⟩ <;> rw [h3] <;> rfl
    rw [this, List.append_nil]
    exact same (by rw [h1]; exact List.Sublist.refl _)

theorem brings_nil {l : Loop} {e : Ev} (h : ∀ ms, e ≠ .delivered ms) : Sdk.QueueLoop.brings l e = [] := by
  cases e <;> first | rfl | exact absurd rfl (h _)

theorem NTok.step {s : Net} {C : List Nat} (h : NTok s C) (e : Event) : NTok (s.step o e) (C ++ nosBy o s e) := by
  have refl : ∀ {s' : Net}, s'.answers = s.answers → s'.clients = s.clients → s'.deliveries = s.deliveries → NTok s' (C ++ []) := by
    intro s' h1 h2 h3
    unfold NTok at h ⊢
    rw [List.append_nil, h1, h2, h3]; exact h
  cases e with
  | client k e r =>
    by_cases hd : ∃ ms, e = .delivered ms
    · obtain ⟨ms, rfl⟩ := hd; exact refl rfl rfl rfl
    · have hd : ∀ ms, e ≠ .delivered ms := fun ms hm => hd ⟨ms, hm⟩
      rw [step_client o s k hd]
      have : nosBy o s (.client k e r) = Sdk.QueueLoop.called (Sdk.QueueLoop.step (o.concurrency k) (s.clients k).loop e).2 := by
        cases e <;> first | rfl | exact absurd rfl (hd _)
      rw [this]
      exact h.loop (brings_nil hd)
  | exec i now =>
    simp only [Net.step, nosBy]
    cases s.requests[i]? with
    | none => exact refl rfl rfl rfl
    | some q =>
      cases q with
      | ack => exact refl rfl rfl rfl
      | nack => exact refl rfl rfl rfl
      | consume k no =>
        unfold NTok
        simp only [execStep, List.flatMap_append, List.flatMap_cons, List.flatMap_nil, List.append_nil, List.length_append]
        exact Tok.hand h _
  | loseRequest i => exact refl rfl rfl rfl
  | loseAnswer i =>
    simp only [nosBy, List.append_nil]
    exact Tok.mono h (flatMap_sub _ _) (fun k => List.Sublist.refl _) (Nat.le_refl _)
  | op x => exact refl rfl rfl rfl
  | commit n => exact refl rfl rfl rfl
  | restart n => exact refl rfl rfl rfl
  | receive i ok =>
    simp only [Net.step, nosBy, List.append_nil]
    cases ha : s.answers[i]? with
    | none => exact h
    | some a =>
      have hsub : NTok { s with answers := s.answers.eraseIdx i } C := Tok.mono h (flatMap_sub _ _) (fun k => List.Sublist.refl _) (Nat.le_refl _)
      simp only [receiveStep]
      split
      · cases ok with
        | false =>
          have := hsub.loop (k := a.k) (c := o.concurrency a.k) (e := .failed) (w := none) (rq := s.requests) (nn := s.nextNo) rfl
          have hc : Sdk.QueueLoop.called (Sdk.QueueLoop.step (o.concurrency a.k) (s.clients a.k).loop .failed).2 = [] := by
            have hm := Sdk.QueueLoop.move (o.concurrency a.k) (s.clients a.k).loop .failed
            generalize (Sdk.QueueLoop.step (o.concurrency a.k) (s.clients a.k).loop .failed).2 = os at hm
            cases hm with
            | other _ _ _ hb h1 h2 h3 h4 => rcases h3 with h3 | ⟨h3, _⟩ | ⟨h3, _⟩ <;> rw [h3] <;> rfl
          simp only [hc, List.append_nil] at this
          exact this
        | true =>
          by_cases hp : (s.clients a.k).loop.phase = .polling
          · have hm := Sdk.QueueLoop.move (o.concurrency a.k) (s.clients a.k).loop (.delivered a.msgs)
            have ht : todo (s.clients a.k).loop = [] := by simp [todo, hp]
            have ht' : todo (Sdk.QueueLoop.step (o.concurrency a.k) (s.clients a.k).loop (.delivered a.msgs)).1 = a.msgs := by
              generalize (Sdk.QueueLoop.step (o.concurrency a.k) (s.clients a.k).loop (.delivered a.msgs)).2 = os at hm
              cases hm with
              | bring ms _ hs hp h1 h2 h3 => exact h1
              | other _ _ _ hb h1 h2 h3 h4 =>
                simp only [Sdk.QueueLoop.brings, hp] at hb
                rw [h1, ht, hb]
            refine Tok.arrive h (k := a.k) (flatMap_erase ha) ht ?_ ?_
            · simp only [put_same]; exact ht'
            · intro j hj
              simp only [put_ne _ _ hj]
          · have he : Sdk.QueueLoop.brings (s.clients a.k).loop (.delivered a.msgs) = [] := by
              unfold Sdk.QueueLoop.brings
              split
              · next hh => exact absurd hh hp
              · rfl
            have := hsub.loop (k := a.k) (c := o.concurrency a.k) (e := .delivered a.msgs) (w := none) (rq := s.requests) (nn := s.nextNo) he
            have hc : (Sdk.QueueLoop.step (o.concurrency a.k) (s.clients a.k).loop (.delivered a.msgs)).2 = [] := by
              simp only [Sdk.QueueLoop.step]
            simp only [hc, Sdk.QueueLoop.called, List.append_nil] at this
            exact this
      · exact hsub

theorem NTok.run (cfg : Config) (es : List Event) : NTok ((Net.new cfg).run o es) (nos o (Net.new cfg) es) := by
  induction es using Verif.Sdk.snoc_ind with
  | h0 => exact ⟨List.nodup_nil, fun _ => List.nodup_nil, fun _ _ _ _ h => (nomatch h), fun _ _ h => (nomatch h), List.nodup_nil, fun _ h => (nomatch h),
      fun _ h => (nomatch h), fun _ h => (nomatch h), fun _ _ h => (nomatch h), fun _ h => (nomatch h)⟩
  | h1 es e ih => rw [run_snoc, nos_snoc]; exact ih.step o e

/-! ## What is delivered, and what the callbacks are called with -/

/-- The deliveries only grow. -/
theorem deliveries_step (s : Net) (e : Event) : ∃ l, (s.step o e).deliveries = s.deliveries ++ l := by
  cases e with
  | client k e r => exact ⟨[], by cases e <;> simp [Net.step, clientStep]⟩
  | exec i now =>
    simp only [Net.step]
    cases s.requests[i]? with
    | none => exact ⟨[], by simp⟩
    | some q =>
      cases q with
      | ack => exact ⟨[], by simp [execStep]⟩
      | nack => exact ⟨[], by simp [execStep]⟩
      | consume k no => exact ⟨_, rfl⟩
  | receive i ok =>
    simp only [Net.step]
    cases s.answers[i]? with
    | none => exact ⟨[], by simp⟩
    | some a => exact ⟨[], by rw [(receiveStep_fields o _ a ok).2.2.2]; simp⟩
  | _ => exact ⟨[], by simp [Net.step]⟩

theorem filterMap_grow {L l : List Msg} {C : List Nat} (h : ∀ m ∈ C, m < L.length) :
    C.filterMap (fun m => (L ++ l)[m]?) = C.filterMap (fun m => L[m]?) := by
  induction C with
  | nil => rfl
  | cons m C ih =>
    simp only [List.filterMap_cons, List.getElem?_append_left (h m (by simp)), ih (fun x hx => h x (List.mem_cons_of_mem _ hx))]

theorem callsBy_nos (s : Net) (e : Event) : callsBy o s e = (nosBy o s e).filterMap (fun m => s.deliveries[m]?) := by
  cases e with
  | client k e r => cases e <;> rfl
  | _ => rfl

theorem calls_nos (cfg : Config) (es : List Event) :
    calls o (Net.new cfg) es = (nos o (Net.new cfg) es).filterMap (fun m => ((Net.new cfg).run o es).deliveries[m]?) := by
  induction es using Verif.Sdk.snoc_ind with
  | h0 => rfl
  | h1 es e ih =>
    rw [calls_snoc, nos_snoc, List.filterMap_append, run_snoc, ih, callsBy_nos]
    obtain ⟨l, hl⟩ := deliveries_step o ((Net.new cfg).run o es) e
    have hn := NTok.run o cfg es
    have hn' := (NTok.run o cfg (es ++ [e])).cn
    rw [hl, filterMap_grow hn.cn]
    congr 1
    by_cases hc : nosBy o ((Net.new cfg).run o es) e = []
    · rw [hc]; rfl
    · have : l = [] := by
        cases e with
        | client k e r =>
          have : ((Net.new cfg).run o es).deliveries ++ l = ((Net.new cfg).run o es).deliveries := by
            rw [← hl]; cases e <;> rfl
          simpa using this
        | _ => exact absurd rfl hc
      rw [this, List.append_nil]

/-- Picking different positions of a list finds a value at most as often as it occurs. -/
theorem pick_count (L : List Msg) (id : Id) (C : List Nat) (hC : C.Nodup) :
    ((C.filterMap (fun m => L[m]?)).map (·.id)).count id ≤ (L.map (·.id)).count id := by
  induction L generalizing C with
  | nil =>
    have : C.filterMap (fun m => ([] : List Msg)[m]?) = [] := List.filterMap_eq_nil_iff.2 (fun _ _ => rfl)
    rw [this]; exact Nat.le_refl _
  | cons x L ih =>
    have hsplit : ((C.filterMap (fun m => (x :: L)[m]?)).map (·.id)).count id ≤
        (if x.id = id then C.count 0 else 0) + (((C.filter (fun m => m ≠ 0)).map (· - 1)).filterMap (fun m => L[m]?) |>.map (·.id)).count id := by
      clear hC ih
      induction C with
      | nil => simp
      | cons m C ih =>
        cases m with
        | zero =>
          simp only [List.filterMap_cons, List.getElem?_cons_zero, List.map_cons, List.count_cons, ne_eq, not_true, decide_false, Bool.false_eq_true,
            not_false_iff, List.filter_cons_of_neg, beq_self_eq_true, if_true]
          by_cases hx : x.id = id
          · simp [hx] at ih ⊢; omega
          · simp [hx] at ih ⊢; omega
        | succ m =>
          simp only [List.filterMap_cons, List.getElem?_cons_succ, List.count_cons, ne_eq, Nat.succ_ne_zero, not_false_iff, decide_true, List.filter_cons_of_pos,
            List.map_cons, Nat.add_sub_cancel]
          cases hm : L[m]? with
          | none => simpa using ih
          | some y => simp only [List.map_cons, List.count_cons] at ih ⊢; simp at ih ⊢; omega
    have hz : C.count 0 ≤ 1 := List.nodup_iff_count.1 hC 0
    have hn : ((C.filter (fun m => m ≠ 0)).map (· - 1)).Nodup := by
      have h1 : (C.filter (fun m => m ≠ 0)).Nodup := hC.filter _
      rw [List.nodup_iff_pairwise_ne, List.pairwise_map]
      refine List.Pairwise.imp_of_mem ?_ h1
      intro a b ha hb hab h
      have ha := (List.mem_filter.1 ha).2
      have hb := (List.mem_filter.1 hb).2
      simp at ha hb
      omega
    have := ih _ hn
    simp only [List.map_cons, List.count_cons]
    by_cases hx : x.id = id
    · simp [hx] at hsplit ⊢; simp at this; omega
    · simp [hx] at hsplit ⊢; simp at this; omega

/-- Calls are at most deliveries. -/
theorem calls_le (cfg : Config) (es : List Event) (id : Id) :
    ((calls o (Net.new cfg) es).map (·.id)).count id ≤ (((Net.new cfg).run o es).deliveries.map (·.id)).count id := by
  rw [calls_nos]
  exact pick_count _ id _ (NTok.run o cfg es).c

theorem deliveries_le (cfg : Config) (es : List Event) (id : Id) :
    (((Net.new cfg).run o es).deliveries.map (·.id)).count id ≤
      Queue.delivered id ((Sys.new cfg).run (serverEvents o (Net.new cfg) es)).2 := by
  induction es using Verif.Sdk.snoc_ind with
  | h0 => exact Nat.zero_le _
  | h1 es e ih =>
    have grow : ∀ l, Queue.delivered id ((Sys.new cfg).run (serverEvents o (Net.new cfg) es)).2 ≤
        Queue.delivered id ((Sys.new cfg).run (serverEvents o (Net.new cfg) es ++ l)).2 := by
      intro l
      induction l using Verif.Sdk.snoc_ind with
      | h0 => rw [List.append_nil]; exact Nat.le_refl _
      | h1 l x ih => rw [← List.append_assoc, Queue.delivered_append]; omega
    rw [run_snoc, serverEvents_snoc]
    by_cases hd : (((Net.new cfg).run o es).step o e).deliveries = ((Net.new cfg).run o es).deliveries
    · rw [hd]; exact Nat.le_trans ih (grow _)
    · cases e with
      | exec i now =>
        simp only [Net.step, serverEvent] at hd ⊢
        cases hq : ((Net.new cfg).run o es).requests[i]? with
        | none => rw [hq] at hd; exact absurd rfl hd
        | some q =>
          rw [hq] at hd
          cases q with
          | ack => exact absurd rfl hd
          | nack => exact absurd rfl hd
          | consume k no =>
            simp only [execStep]
            rw [Queue.delivered_append, List.map_append, List.count_append, server_run]
            refine Nat.add_le_add ih ?_
            show _ ≤ Queue.deliveries id ((((Sys.new cfg).run (serverEvents o (Net.new cfg) es)).1.step (.op (Request.op o now (.consume k no)))).2).toList
            simp only [Net.new]
            generalize (((Sys.new cfg).run _).1.step (.op (Request.op o now (.consume k no)))).2 = x
            cases x with
            | none => simp [handed]
            | some x => cases x <;> simp [handed, Queue.deliveries, Queue.Out.delivered]
      | client k e r => exact absurd (by cases e <;> rfl) hd
      | receive i ok =>
        refine absurd ?_ hd
        simp only [Net.step]
        cases ((Net.new cfg).run o es).answers[i]? with
        | none => rfl
        | some a => exact (receiveStep_fields o _ a ok).2.2.2
      | loseRequest => exact absurd rfl hd
      | loseAnswer => exact absurd rfl hd
      | op => exact absurd rfl hd
      | commit => exact absurd rfl hd
      | restart => exact absurd rfl hd

/-- What the server hands out was pushed. -/
theorem deliveries_pushed (cfg : Config) (P : Spec.Queue.Core → Prop) (es : List Event) (hv : Valid o es)
    (hp : ∀ x, .op x ∈ es → ∀ c ∈ x.pushCore, P c) : ∀ m ∈ ((Net.new cfg).run o es).deliveries, P m.core := by
  induction es using Verif.Sdk.snoc_ind with
  | h0 => intro m hm; cases hm
  | h1 es e ih =>
    intro m hm
    have ih := ih hv.left (fun x hx => hp x (List.mem_append_left _ hx))
    rw [run_snoc] at hm
    by_cases hd : (((Net.new cfg).run o es).step o e).deliveries = ((Net.new cfg).run o es).deliveries
    · rw [hd] at hm; exact ih m hm
    · cases e with
      | exec i now =>
        simp only [Net.step] at hd hm
        cases hq : ((Net.new cfg).run o es).requests[i]? with
        | none => rw [hq] at hd; exact absurd rfl hd
        | some q =>
          rw [hq] at hd hm
          cases q with
          | ack => exact absurd rfl hd
          | nack => exact absurd rfl hd
          | consume k no =>
            simp only [execStep] at hm
            rcases List.mem_append.1 hm with hm | hm
            · exact ih m hm
            · have hsc := Queue.SC.run P cfg _ (hv.left.server o (Net.new cfg)) (by
                intro x hx c hc
                rcases mem_server o hx with h | ⟨a, i, now, b, q, h1, h2, h3⟩
                · exact hp x (List.mem_append_left _ h) c hc
                · subst h3; cases q <;> cases hc)
              have hs := server_run o (Net.new cfg) es
              have hsv : (Net.new cfg).server = Sys.new cfg := rfl
              rw [hsv] at hs
              rw [← hs] at hsc
              have hok : (Op.consume (o.batchSize k) now).ok := hv.1 k
              have hst := hsc.step (.op (.consume (o.batchSize k) now)) (by
                intro x hx; cases hx; exact ⟨hok, fun _ h => (nomatch h), fun _ h => (nomatch h)⟩)
              obtain ⟨a, ha⟩ := hsc.q
              obtain ⟨a', ha'⟩ := hst.q
              have hl : (Queue.step ((Net.new cfg).run o es).server.q (.consume (o.batchSize k) now)).2.1 =
                  .msgs (handed (some (Queue.step ((Net.new cfg).run o es).server.q (.consume (o.batchSize k) now)).2.1)) := by
                have hk : ¬ (o.batchSize k * Queue.msgSize > Queue.isizeMax) := Nat.not_lt.2 hok
                simp only [Queue.step, hk, if_false, handed]
              have := Queue.handed_out ha (.consume (o.batchSize k) now) hl hm
              exact (Queue.QContent.reg ha' hst.qc this).1
      | client k e r => exact absurd (by cases e <;> rfl) hd
      | receive i ok =>
        refine absurd ?_ hd
        simp only [Net.step]
        cases ((Net.new cfg).run o es).answers[i]? with
        | none => rfl
        | some a => exact (receiveStep_fields o _ a ok).2.2.2
      | loseRequest => exact absurd rfl hd
      | loseAnswer => exact absurd rfl hd
      | op => exact absurd rfl hd
      | commit => exact absurd rfl hd
      | restart => exact absurd rfl hd

end Verif.QueueE2E
