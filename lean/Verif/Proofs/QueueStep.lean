import Verif.Proofs.QueueRefine

/-!
# One request: the model's step is the specification's step
-/

namespace Verif.Queue

open Spec.Queue (Item Dead Q lineUp file dropReady dropFlight Req Ans)

/-- Specification step for a queue with this configuration. -/
abbrev sstep (cfg : Config) (a : Q) (op : Op) : Q × Ans :=
  Spec.Queue.step cfg.visibilityTimeout cfg.maxRetries timeoutReason a op.req

theorem RQ.lookDead {q : QInner} {a : Q} {used : Id → Prop} (h : RQ q a used) (id : Id) :
    Spec.Queue.lookupDead id a = (mget q.dlq id).map DlqMsg.dead := by
  unfold Spec.Queue.lookupDead
  rw [← h.dead]
  have hk := h.dkey
  generalize q.dlq = l at hk
  induction l with
  | nil => rfl
  | cons e t ih =>
    have he := hk e (List.mem_cons_self ..)
    have iht := ih (fun x hx => hk x (List.mem_cons_of_mem _ hx))
    simp only [List.map_cons, List.find?_cons, mget_cons]
    by_cases h : e.1 = id
    · have : e.2.dead.item.id = id := by rw [← h, he]; rfl
      simp [h, this]
    · have : e.2.dead.item.id ≠ id := by rw [he] at h; exact h
      simp only [this, decide_false, h, if_false]
      exact iht

theorem RQ.filterDead {q : QInner} {a : Q} {used : Id → Prop} (h : RQ q a used) (id : Id) :
    (mdel q.dlq id).map (·.2.dead) = a.dead.filter (fun d => d.item.id ≠ id) := by
  rw [← h.dead, mdel, List.filter_map]
  congr 1
  apply List.filter_congr
  intro e he
  have := h.dkey e he
  simp only [Function.comp, DlqMsg.dead]
  rw [this]; rfl

theorem dlqPush_spec {d : Dlq} {m : DlqMsg} (hk : ∀ e ∈ d, e.1 = e.2.id) (hw : MWF d) (hn : m.id ∉ mkeys d) :
    dlqPush d m = d ++ [(m.id, m)] ∧ (∀ e ∈ dlqPush d m, e.1 = e.2.id) ∧ MWF (dlqPush d m) := by
  have h1 : dlqPush d m = d ++ [(m.id, m)] := mset_of_not_mem m hn
  refine ⟨h1, ?_, hw.mset _ _⟩
  rw [h1]
  intro e he
  rcases List.mem_append.1 he with he | he
  · exact hk e he
  · simp at he; subst he; rfl

theorem dlqPushAll_spec : ∀ (l : List DlqMsg) {d : Dlq}, (∀ e ∈ d, e.1 = e.2.id) → MWF d →
    (∀ m ∈ l, m.id ∉ mkeys d) → (l.map (·.id)).Nodup →
    l.foldl dlqPush d = d ++ l.map (fun m => (m.id, m)) ∧
    (∀ e ∈ l.foldl dlqPush d, e.1 = e.2.id) ∧ MWF (l.foldl dlqPush d) := by
  intro l
  induction l with
  | nil => intro d hk hw _ _; exact ⟨by simp, hk, hw⟩
  | cons m l ih =>
    intro d hk hw hn hnd
    obtain ⟨h1, h2, h3⟩ := dlqPush_spec hk hw (hn m (List.mem_cons_self ..))
    simp only [List.map_cons, List.nodup_cons] at hnd
    obtain ⟨i1, i2, i3⟩ := ih h2 h3 (by
      intro x hx hmem
      rw [h1] at hmem
      simp only [mkeys, List.map_append, List.mem_append, List.map_cons, List.map_nil, List.mem_singleton] at hmem
      rcases hmem with hmem | hmem
      · exact hn x (List.mem_cons_of_mem _ hx) hmem
      · exact hnd.1 (hmem ▸ List.mem_map.2 ⟨x, hx, rfl⟩)) hnd.2
    simp only [List.foldl_cons]
    refine ⟨?_, i2, i3⟩
    rw [i1, h1]; simp

theorem step_cfg (q : QInner) (op : Op) : (step q op).1.cfg = q.cfg := by
  cases op <;> simp only [step] <;> (repeat' split) <;> rfl

theorem index_length (ix : Index) : (ix.map (·.2.length)).sum = (flat ix).length := by
  induction ix with
  | nil => rfl
  | cons e t ih => simp [ih]

theorem revFlat_length (ix : Index) : (revFlat ix).length = (flat ix).length := by
  induction ix with
  | nil => rfl
  | cons e t ih => simp [ih, Nat.add_comm]

theorem SR.counters {s : QState} {r : List Item} {fl : List (Nat × Item)} (h : SR s r fl) :
    s.counters = (r.length, fl.length) := by
  unfold QState.counters
  rw [index_length, index_length, ← revFlat_length, RS.idr h, RS.idf h]
  simp

/-- One request on the model is one request on the specification. -/
theorem RQ.step {q : QInner} {a : Q} {used : Id → Prop} (h : RQ q a used) (op : Op) (hok : op.ok)
    (hf : ∀ id ∈ op.pushId, ¬ used id) :
    RQ (step q op).1 (sstep q.cfg a op).1 (fun i => used i ∨ i ∈ op.pushId) ∧
    (Verif.Queue.step q op).2.1.ans = some (sstep q.cfg a op).2 := by
  obtain ⟨st, dead, dkey, dwf, disj, usedR, usedD⟩ := h
  have h : RQ q a used := ⟨st, dead, dkey, dwf, disj, usedR, usedD⟩
  have ha : (⟨a.ready, a.flight, a.dead⟩ : Q) = a := rfl
  cases op with
  | push id payload priority now =>
    have hnu : ¬ used id := hf id (by simp [Op.pushId])
    have hn : mget q.state.registry id = none := by
      cases hg : mget q.state.registry id with
      | none => rfl
      | some m => exact absurd (usedR id (by simp [hg])) hnu
    have hp := SR.push st (m := Msg.new id payload priority now) hn rfl
    refine ⟨⟨hp.1, dead, dkey, dwf, ?_, ?_, ?_⟩, rfl⟩
    · intro i hi
      simp only [Verif.Queue.step, hp.2]
      have : i ≠ (Msg.new id payload priority now).id := fun hh => hnu (by have := usedD i hi; rw [hh] at this; exact this)
      rw [fset_ne _ _ this]; exact disj i hi
    · intro i hi
      simp only [Verif.Queue.step, hp.2] at hi
      by_cases hh : i = (Msg.new id payload priority now).id
      · right; simp [Op.pushId, hh, Msg.new]
      · rw [fset_ne _ _ hh] at hi; exact Or.inl (usedR i hi)
    · intro i hi; exact Or.inl (usedD i hi)
  | pop now =>
    have hp := SR.popSingle (d := a.dead) st now q.cfg.visibilityTimeout
    simp only [ha] at hp
    obtain ⟨h1, h2, h3, h4, h5⟩ := hp
    rcases hps : q.state.popSingle now q.cfg.visibilityTimeout with ⟨o, b, s'⟩
    rw [hps] at h1 h2 h4 h5
    simp only at h1 h2 h4 h5
    have hnone : ∀ i, mget s'.registry i = none ↔ mget q.state.registry i = none := by
      intro i
      cases o with
      | none => rw [h5 rfl]
      | some m =>
        obtain ⟨h6, m0, h7, _⟩ := h4 m rfl
        rw [h6]
        by_cases hi : i = m.id
        · rw [hi, h7, fset_same]; simp
        · rw [fset_ne _ _ hi]
    cases o with
    | none =>
      simp only [Verif.Queue.step, hps, sstep, Op.req, Spec.Queue.step, Out.ans]
      refine ⟨⟨h1, ?_, dkey, dwf, ?_, ?_, ?_⟩, ?_⟩
      · simp only; rw [h3]; exact dead
      · intro i hi; exact (hnone i).2 (disj i hi)
      · intro i hi; exact Or.inl (usedR i (fun hh => hi ((hnone i).2 hh)))
      · intro i hi; exact Or.inl (usedD i hi)
      · rw [← h2]; rfl
    | some m =>
      simp only [Verif.Queue.step, hps, sstep, Op.req, Spec.Queue.step, Out.ans]
      refine ⟨⟨h1, ?_, dkey, dwf, ?_, ?_, ?_⟩, ?_⟩
      · simp only; rw [h3]; exact dead
      · intro i hi; exact (hnone i).2 (disj i hi)
      · intro i hi; exact Or.inl (usedR i (fun hh => hi ((hnone i).2 hh)))
      · intro i hi; exact Or.inl (usedD i hi)
      · rw [← h2]; rfl
  | consume max now =>
    have hok' : ¬ (max * msgSize > isizeMax) := Nat.not_lt.2 hok
    have hp := SR.takeBatch (d := a.dead) now q.cfg.visibilityTimeout max st
    simp only [ha] at hp
    obtain ⟨h1, h2, h3, hnone⟩ := hp
    simp only [Verif.Queue.step, hok', if_false, sstep, Op.req, Spec.Queue.step, Out.ans, h2, and_true]
    refine ⟨h1, ?_, dkey, dwf, ?_, ?_, ?_⟩
    · simp only; rw [h3]; exact dead
    · intro i hi; exact (hnone i).2 (disj i hi)
    · intro i hi; exact Or.inl (usedR i (fun hh => hi ((hnone i).2 hh)))
    · intro i hi; exact Or.inl (usedD i hi)
  | ack id =>
    obtain ⟨h1, h2, h3, _⟩ := SR.ack (d := a.dead) st id
    rw [ha] at h2
    simp only [Verif.Queue.step, sstep, Op.req, Spec.Queue.step, Out.ans, h2, and_true]
    refine ⟨h1, dead, dkey, dwf, ?_, ?_, ?_⟩
    · intro i hi
      simp only [h3]
      by_cases hh : i = id
      · rw [hh, fset_same]
      · rw [fset_ne _ _ hh]; exact disj i hi
    · intro i hi
      simp only [h3] at hi
      by_cases hh : i = id
      · rw [hh, fset_same] at hi; exact absurd rfl hi
      · rw [fset_ne _ _ hh] at hi; exact Or.inl (usedR i hi)
    · intro i hi; exact Or.inl (usedD i hi)
  | nack id reason now =>
    have hp := SR.nack (d := a.dead) st id reason q.cfg.maxRetries now
    simp only [ha] at hp
    obtain ⟨h1, h2⟩ := hp
    simp only [sstep, Op.req, Spec.Queue.step]
    cases hm : mget q.state.registry id with
    | none =>
      rw [hm] at h2
      obtain ⟨h3, h4, h5, h6⟩ := h2
      rcases hn : q.state.nack id reason q.cfg.maxRetries now with ⟨o, s'⟩
      rw [hn] at h1 h3 h4
      simp only at h1 h3 h4
      subst h3
      simp only [Verif.Queue.step, hn, Out.ans, h5, and_true]
      subst h4
      refine ⟨h1, ?_, dkey, dwf, disj, ?_, ?_⟩
      · rw [h6]; exact dead
      · intro i hi; exact Or.inl (usedR i hi)
      · intro i hi; exact Or.inl (usedD i hi)
    | some m =>
      have hmid : m.id = id := (RS.comp st id m hm).1
      rw [hm] at h2
      obtain ⟨h5, h2⟩ := h2
      rcases hn : q.state.nack id reason q.cfg.maxRetries now with ⟨o, s'⟩
      rw [hn] at h1 h2
      simp only at h1 h2
      split at h2
      · obtain ⟨h3, h6, h7⟩ := h2
        subst h3
        simp only [Verif.Queue.step, hn, Out.ans, h5, and_true]
        have hnk : (DlqMsg.ofMsg m reason now).id ∉ mkeys q.dlq := by
          intro hk
          have := disj _ hk
          rw [show (DlqMsg.ofMsg m reason now).id = id from hmid, hm] at this
          cases this
        obtain ⟨p1, p2, p3⟩ := dlqPush_spec dkey dwf hnk
        have hkeys : ∀ i ∈ mkeys (dlqPush q.dlq (DlqMsg.ofMsg m reason now)), i ∈ mkeys q.dlq ∨ i = id := by
          intro i hi
          rcases mem_mkeys_mset.1 hi with hi | hi
          · right; rw [hi]; exact hmid
          · exact Or.inl hi
        refine ⟨h1, ?_, p2, p3, ?_, ?_, ?_⟩
        · simp only [p1, List.map_append, h6, dead]; rfl
        · intro i hi
          simp only [h7]
          rcases hkeys i hi with hi | hi
          · by_cases hh : i = id
            · rw [hh, fset_same]
            · rw [fset_ne _ _ hh]; exact disj i hi
          · rw [hi, fset_same]
        · intro i hi
          simp only [h7] at hi
          by_cases hh : i = id
          · rw [hh, fset_same] at hi; exact absurd rfl hi
          · rw [fset_ne _ _ hh] at hi; exact Or.inl (usedR i hi)
        · intro i hi
          rcases hkeys i hi with hi | hi
          · exact Or.inl (usedD i hi)
          · rw [hi]; exact Or.inl (usedR id (by simp [hm]))
      · obtain ⟨h3, h6, h7⟩ := h2
        subst h3
        simp only [Verif.Queue.step, hn, Out.ans, h5, and_true]
        refine ⟨h1, ?_, dkey, dwf, ?_, ?_, ?_⟩
        · rw [h6]; exact dead
        · intro i hi
          simp only [h7]
          have : i ≠ id := by
            intro hh; have := disj i hi; rw [hh, hm] at this; cases this
          rw [fset_ne _ _ this]; exact disj i hi
        · intro i hi
          simp only [h7] at hi
          by_cases hh : i = id
          · rw [hh]; exact Or.inl (usedR id (by simp [hm]))
          · rw [fset_ne _ _ hh] at hi; exact Or.inl (usedR i hi)
        · intro i hi; exact Or.inl (usedD i hi)
  | tick now now' =>
    have hto := SR.timeout_iff st now
    simp only [sstep, Op.req, Spec.Queue.step]
    have weak : RQ q a (fun i => used i ∨ i ∈ (Op.tick now now').pushId) :=
      ⟨st, dead, dkey, dwf, disj, fun i hi => Or.inl (usedR i hi), fun i hi => Or.inl (usedD i hi)⟩
    cases hnt : q.state.nextTimeout with
    | none =>
      rw [hnt] at hto
      simp only at hto
      simp only [Verif.Queue.step, hnt, ← hto, Out.ans]
      exact ⟨weak, trivial⟩
    | some ts =>
      rw [hnt] at hto
      simp only at hto
      by_cases hts : ts ≤ now
      · simp only [hts, decide_true] at hto
        simp only [Verif.Queue.step, hnt, hts, if_true, ← hto, Out.ans, and_true]
        have hp := SR.processExpired (d := a.dead) st q.cfg.maxRetries now'
        simp only [ha] at hp
        obtain ⟨e1, e2, e3, e4, e5, e6, e7⟩ := hp
        have hdnk : ∀ m ∈ (q.state.processExpired q.cfg.maxRetries now').1.2, m.id ∉ mkeys q.dlq := by
          intro m hm hk
          obtain ⟨m0, h0, _⟩ := e5 m hm
          rw [disj _ hk] at h0; cases h0
        obtain ⟨p1, p2, p3⟩ := dlqPushAll_spec _ dkey dwf hdnk (List.nodup_append.1 e4).2.1
        have hkeys : ∀ i ∈ mkeys ((q.state.processExpired q.cfg.maxRetries now').1.2.foldl dlqPush q.dlq),
            i ∈ mkeys q.dlq ∨ i ∈ (q.state.processExpired q.cfg.maxRetries now').1.2.map (·.id) := by
          intro i hi
          rw [p1] at hi
          simp only [mkeys, List.map_append, List.mem_append, List.map_map] at hi
          exact hi
        refine ⟨e1, ?_, p2, p3, ?_, ?_, ?_⟩
        · simp only [p1, List.map_append, List.map_map, e2, dead]; rfl
        · intro i hi
          by_cases hid : i ∈ (q.state.processExpired q.cfg.maxRetries now').1.2.map (·.id)
          · exact e6 i hid
          · rw [e7 i hid]
            rcases hkeys i hi with hi | hi
            · split <;> simp [disj i hi]
            · exact absurd hi hid
        · intro i hi
          by_cases hid : i ∈ (q.state.processExpired q.cfg.maxRetries now').1.2.map (·.id)
          · exact absurd (e6 i hid) hi
          · simp only at hi
            rw [e7 i hid] at hi
            left
            apply usedR
            intro hh
            apply hi
            split <;> simp [hh]
        · intro i hi
          rcases hkeys i hi with hi | hi
          · exact Or.inl (usedD i hi)
          · obtain ⟨m, hm, rfl⟩ := List.mem_map.1 hi
            obtain ⟨m0, h0, _⟩ := e5 m hm
            exact Or.inl (usedR _ (by simp [h0]))
      · simp only [hts, decide_false] at hto
        simp only [Verif.Queue.step, hnt, hts, if_false, ← hto, Out.ans]
        exact ⟨weak, trivial⟩
  | peekDlq limit offset =>
    simp only [Verif.Queue.step, sstep, Op.req, Spec.Queue.step, Out.ans, dlqPeek]
    refine ⟨⟨st, dead, dkey, dwf, disj, fun i hi => Or.inl (usedR i hi), fun i hi => Or.inl (usedD i hi)⟩, ?_⟩
    rw [← dead]
    simp [List.map_take, List.map_drop, List.map_reverse, List.map_map, Function.comp_def]
  | moveToQueue id =>
    have hl := RQ.lookDead h id
    simp only [sstep, Op.req, Spec.Queue.step, Spec.Queue.replay, hl]
    cases hg : mget q.dlq id with
    | none =>
      simp only [Verif.Queue.step, dlqRemove, hg, Option.map_none, Out.ans, and_true]
      exact ⟨st, dead, dkey, dwf, disj, fun i hi => Or.inl (usedR i hi), fun i hi => Or.inl (usedD i hi)⟩
    | some d =>
      have hmem := mget_some_mem hg
      have hdid : d.id = id := (dkey _ hmem).symm
      have hk : id ∈ mkeys q.dlq := List.mem_map.2 ⟨_, hmem, rfl⟩
      have hn : mget q.state.registry d.toMsg.id = none := by
        rw [show d.toMsg.id = id from hdid]; exact disj id hk
      have hp := SR.push st (m := d.toMsg) hn rfl
      simp only [Verif.Queue.step, dlqRemove, hg, Option.map_some, Out.ans, and_true]
      refine ⟨hp.1, RQ.filterDead h id, ?_, dwf.mdel _, ?_, ?_, ?_⟩
      · intro e he; exact dkey e (List.mem_filter.1 he).1
      · intro i hi
        have hi' := mem_mkeys_mdel.1 hi
        simp only [hp.2]
        have : i ≠ d.toMsg.id := by rw [show d.toMsg.id = id from hdid]; exact hi'.1
        rw [fset_ne _ _ this]; exact disj i hi'.2
      · intro i hi
        simp only [hp.2] at hi
        by_cases hh : i = d.toMsg.id
        · rw [hh, show d.toMsg.id = id from hdid]; exact Or.inl (usedD id hk)
        · rw [fset_ne _ _ hh] at hi; exact Or.inl (usedR i hi)
      · intro i hi; exact Or.inl (usedD i (mem_mkeys_mdel.1 hi).2)
  | deleteDlq id =>
    have hl := RQ.lookDead h id
    simp only [sstep, Op.req, Spec.Queue.step, Spec.Queue.discard, hl]
    cases hg : mget q.dlq id with
    | none =>
      simp only [Verif.Queue.step, dlqRemove, hg, Option.map_none, Out.ans, and_true]
      exact ⟨st, dead, dkey, dwf, disj, fun i hi => Or.inl (usedR i hi), fun i hi => Or.inl (usedD i hi)⟩
    | some d =>
      simp only [Verif.Queue.step, dlqRemove, hg, Option.map_some, Out.ans, and_true]
      refine ⟨st, RQ.filterDead h id, ?_, dwf.mdel _, ?_, fun i hi => Or.inl (usedR i hi), ?_⟩
      · intro e he; exact dkey e (List.mem_filter.1 he).1
      · intro i hi; exact disj i (mem_mkeys_mdel.1 hi).2
      · intro i hi; exact Or.inl (usedD i (mem_mkeys_mdel.1 hi).2)
  | purgeDlq =>
    simp only [Verif.Queue.step, sstep, Op.req, Spec.Queue.step, Out.ans]
    refine ⟨⟨st, rfl, ?_, MWF.nil, ?_, fun i hi => Or.inl (usedR i hi), ?_⟩, ?_⟩
    · intro e he; simp at he
    · intro i hi; simp [mkeys] at hi
    · intro i hi; simp [mkeys] at hi
    · rw [← dead]; simp
  | counters =>
    simp only [Verif.Queue.step, sstep, Op.req, Spec.Queue.step, Out.ans]
    refine ⟨⟨st, dead, dkey, dwf, disj, fun i hi => Or.inl (usedR i hi), fun i hi => Or.inl (usedD i hi)⟩, ?_⟩
    rw [SR.counters st, ← dead]; simp

theorem pushIds_cons (op : Op) (t : List Op) : pushIds (op :: t) = op.pushId ++ pushIds t := by
  cases op <;> rfl

/-- Histories. -/
theorem RQ.run : ∀ (ops : List Op) {q : QInner} {a : Q} {used : Id → Prop}, RQ q a used →
    (∀ op ∈ ops, op.ok) → (pushIds ops).Nodup → (∀ id ∈ pushIds ops, ¬ used id) →
    RQ (run q ops).1 (Spec.Queue.run q.cfg.visibilityTimeout q.cfg.maxRetries timeoutReason a (ops.map Op.req)).1
      (fun i => used i ∨ i ∈ pushIds ops) ∧
    (Verif.Queue.run q ops).2.map Out.ans =
      (Spec.Queue.run q.cfg.visibilityTimeout q.cfg.maxRetries timeoutReason a (ops.map Op.req)).2.map some ∧
    (Verif.Queue.run q ops).1.cfg = q.cfg := by
  intro ops
  induction ops with
  | nil =>
    intro q a used h _ _ _
    refine ⟨⟨h.st, h.dead, h.dkey, h.dwf, h.disj, fun i hi => Or.inl (h.usedR i hi), fun i hi => Or.inl (h.usedD i hi)⟩, rfl, rfl⟩
  | cons op t ih =>
    intro q a used h hok hnd hf
    rw [pushIds_cons] at hnd hf
    obtain ⟨s1, s2⟩ := RQ.step h op (hok op (List.mem_cons_self ..)) (fun id hid => hf id (List.mem_append_left _ hid))
    have hnd' := List.nodup_append.1 hnd
    obtain ⟨i1, i2, i3⟩ := ih s1 (fun o ho => hok o (List.mem_cons_of_mem _ ho)) hnd'.2.1 (by
      intro id hid hu
      rcases hu with hu | hu
      · exact hf id (List.mem_append_right _ hid) hu
      · exact hnd'.2.2 id hu id hid rfl)
    rw [step_cfg] at i1 i2 i3
    simp only [Verif.Queue.run, List.map_cons, Spec.Queue.run]
    refine ⟨?_, ?_, i3⟩
    · refine ⟨i1.st, i1.dead, i1.dkey, i1.dwf, i1.disj, ?_, ?_⟩
      · intro i hi
        rw [pushIds_cons]
        rcases i1.usedR i hi with (h | h) | h
        · exact Or.inl h
        · exact Or.inr (List.mem_append_left _ h)
        · exact Or.inr (List.mem_append_right _ h)
      · intro i hi
        rw [pushIds_cons]
        rcases i1.usedD i hi with (h | h) | h
        · exact Or.inl h
        · exact Or.inr (List.mem_append_left _ h)
        · exact Or.inr (List.mem_append_right _ h)
    · rw [s2, i2]

end Verif.Queue
