import Verif.Proofs.QueueView

/-!
# Histories of requests on a queue
-/

namespace Verif.Queue

open Spec.Queue (Item Dead Q Core Req Ans Held)

theorem Sys.run_cfg : ∀ (es : List Event) (s : Sys), (s.run es).1.q.cfg = s.q.cfg := by
  intro es
  induction es with
  | nil => intro s; rfl
  | cons e t ih =>
    intro s
    simp only [Sys.run]
    rw [ih]
    cases e with
    | op o => exact step_cfg _ _
    | commit n => rfl
    | restart now => rfl

theorem Reachable.inv {cfg : Config} {used : List Id} {q : QInner} (h : Reachable cfg used q) :
    q.cfg = cfg ∧ ∃ a, RQ q a (· ∈ used) := by
  obtain ⟨es, hv, hu, rfl⟩ := h
  refine ⟨Sys.run_cfg es _, ?_⟩
  have := SysInv.run es (SysInv.init cfg (fun _ => False)) hv (by simp)
  obtain ⟨a, ha⟩ := this.q
  exact ⟨a, ha.mono (by intro i hi; rw [← hu]; simpa using hi)⟩

theorem delivered_ans {o : Out} {a : Ans} (h : o.ans = some a) : o.delivered = a.delivered := by
  cases o with
  | msgs l =>
    simp only [Out.ans, Option.some.injEq] at h
    subst h
    simp only [Out.delivered, Spec.Queue.Ans.delivered, List.map_map]; rfl
  | done => simp only [Out.ans, Option.some.injEq] at h; subst h; rfl
  | bool b => simp only [Out.ans, Option.some.injEq] at h; subst h; rfl
  | page n l => simp only [Out.ans, Option.some.injEq] at h; subst h; rfl
  | count n => simp only [Out.ans, Option.some.injEq] at h; subst h; rfl
  | stats x y z => simp only [Out.ans, Option.some.injEq] at h; subst h; rfl
  | panicked => simp [Out.ans] at h

theorem addedBy_pushId (op : Op) : (Spec.Queue.addedBy op.req).map (·.1) = op.pushId := by
  cases op <;> rfl

theorem Fresh.cons {used : List Id} {op : Op} {t : List Op} (h : Fresh used (op :: t)) :
    op.ok ∧ (∀ id ∈ op.pushId, id ∉ used) ∧ Fresh (used ++ op.pushId) t := by
  obtain ⟨h1, h2, h3⟩ := h
  rw [pushIds_cons] at h2 h3
  have h2' := List.nodup_append.1 h2
  refine ⟨h1 op (List.mem_cons_self ..), fun id hid => h3 id (List.mem_append_left _ hid), ?_, h2'.2.1, ?_⟩
  · intro o ho; exact h1 o (List.mem_cons_of_mem _ ho)
  · intro id hid hm
    rcases List.mem_append.1 hm with hm | hm
    · exact h3 id (List.mem_append_right _ hid) hm
    · exact h2'.2.2 id hm id hid rfl

/-- One request, with everything the history proofs need. -/
theorem RQ.stepU {q : QInner} {a : Q} {used : List Id} (h : RQ q a (· ∈ used)) {op : Op} (hok : op.ok)
    (hf : ∀ id ∈ op.pushId, id ∉ used) :
    RQ (Verif.Queue.step q op).1 (sstep q.cfg a op).1 (· ∈ used ++ op.pushId) ∧
    (Verif.Queue.step q op).2.1.ans = some (sstep q.cfg a op).2 ∧
    (Verif.Queue.step q op).2.1.delivered = (sstep q.cfg a op).2.delivered := by
  obtain ⟨h1, h2⟩ := RQ.step h op hok hf
  exact ⟨h1.mono (by intro i hi; simpa using hi), h2, delivered_ans h2⟩

theorem RQ.runU {q : QInner} {a : Q} {used : List Id} (h : RQ q a (· ∈ used)) {ops : List Op} (hf : Fresh used ops) :
    RQ (Verif.Queue.run q ops).1 (Spec.Queue.run q.cfg.visibilityTimeout q.cfg.maxRetries timeoutReason a (ops.map Op.req)).1
      (· ∈ used ++ pushIds ops) ∧
    (Verif.Queue.run q ops).2.map Out.ans =
      (Spec.Queue.run q.cfg.visibilityTimeout q.cfg.maxRetries timeoutReason a (ops.map Op.req)).2.map some ∧
    (Verif.Queue.run q ops).1.cfg = q.cfg := by
  obtain ⟨h1, h2, h3⟩ := RQ.run ops h hf.1 hf.2.1 hf.2.2
  exact ⟨h1.mono (by intro i hi; simpa using hi), h2, h3⟩

theorem RQ.ids_used {q : QInner} {a : Q} {used : Id → Prop} (h : RQ q a used) {id : Id} (hi : id ∈ a.ids) : used id := by
  rw [Spec.Queue.ids_eq] at hi
  rcases List.mem_append.1 hi with hi | hi
  · obtain ⟨x, hx, rfl⟩ := List.mem_map.1 hi
    obtain ⟨m, hm, _⟩ := RS.cr h.st x hx
    exact h.usedR _ (by simp [hm])
  · rcases List.mem_append.1 hi with hi | hi
    · obtain ⟨x, hx, rfl⟩ := List.mem_map.1 hi
      obtain ⟨m, hm, _⟩ := RS.cf h.st x hx
      exact h.usedR _ (by simp [hm])
    · obtain ⟨d, hd, rfl⟩ := List.mem_map.1 hi
      rw [← h.dead] at hd
      obtain ⟨e, he, rfl⟩ := List.mem_map.1 hd
      have := h.usedD e.1 (List.mem_map.2 ⟨e, he, rfl⟩)
      rw [h.dkey e he] at this
      exact this

theorem View.places {q : QInner} {a : Q} (v : View q a) : (Verif.Queue.places q).Perm a.cores := by
  unfold Verif.Queue.places Spec.Queue.Q.cores
  have h1 : ((waiting q).map Msg.core).Perm (a.ready.map Item.core) := by
    have := v.wait.map Item.core
    rw [List.map_map] at this; exact this
  have h2 : (inFlight q).map Msg.core = a.flight.map (fun e => e.2.core) := by
    rw [← v.flight, List.map_map]; rfl
  have h3 : ((deadLetters q).map DlqMsg.core).Perm (a.dead.map (fun d => d.item.core)) := by
    have h4 : (deadLetters q).map DlqMsg.core = ((deadLetters q).map DlqMsg.dead).map (fun d => d.item.core) := by
      rw [List.map_map]; rfl
    rw [h4, v.dead, List.map_reverse]
    exact List.reverse_perm _
  rw [List.append_assoc]
  exact h1.append (by rw [h2]; exact List.Perm.append_left _ h3)

theorem View.removedBy {q : QInner} {a : Q} (v : View q a) (op : Op) :
    (Verif.Queue.removedBy q op).Perm (Spec.Queue.removedBy a op.req) := by
  cases op with
  | ack id =>
    simp only [Verif.Queue.removedBy, Op.req, Spec.Queue.removedBy, List.filter_append, List.map_append]
    refine List.Perm.append ?_ ?_
    · have h1 := (v.wait.filter (fun x => decide (x.id = id))).map Item.core
      rw [List.filter_map, List.map_map] at h1
      exact h1
    · rw [← v.flight, List.filter_map, List.map_map]
      exact List.Perm.refl _
  | deleteDlq id =>
    simp only [Verif.Queue.removedBy, Op.req, Spec.Queue.removedBy]
    have h1 : ((deadLetters q).filter (fun d => decide (d.id = id))).map DlqMsg.core =
        (((deadLetters q).map DlqMsg.dead).filter (fun d => decide (d.item.id = id))).map (fun d => d.item.core) := by
      rw [List.filter_map, List.map_map]; rfl
    rw [h1, v.dead]
    exact ((List.reverse_perm _).filter _).map _
  | purgeDlq =>
    simp only [Verif.Queue.removedBy, Op.req, Spec.Queue.removedBy]
    have h4 : (deadLetters q).map DlqMsg.core = ((deadLetters q).map DlqMsg.dead).map (fun d => d.item.core) := by
      rw [List.map_map]; rfl
    rw [h4, v.dead, List.map_reverse]
    exact List.reverse_perm _
  | _ => exact List.Perm.refl _

theorem pushed_cons (op : Op) (t : List Op) : pushed (op :: t) = Spec.Queue.addedBy op.req ++ pushed t := by
  cases op <;> rfl

/-- The messages of a batch are in flight afterwards, exactly as handed out. -/
theorem takeBatch_mem (now vt : Nat) : ∀ (n : Nat) {s : QState} {r : List Item} {fl : List (Nat × Item)}, SR s r fl →
    (∀ m ∈ (s.takeBatch now vt n).1, mget (s.takeBatch now vt n).2.2.registry m.id = some m ∧ m.state = .inFlight (now + vt)) := by
  have keep : ∀ (n : Nat) {s : QState} {r : List Item} {fl : List (Nat × Item)}, SR s r fl →
      ∀ i m, mget s.registry i = some m → m.state ≠ .ready → mget (s.takeBatch now vt n).2.2.registry i = some m := by
    intro n
    induction n with
    | zero => intro s r fl _ i m hm _; exact hm
    | succ n ih =>
      intro s r fl h i m hm hs
      obtain ⟨h1, h2, h3, h4, h5⟩ := SR.popSingle (d := []) h now vt
      simp only [QState.takeBatch]
      rcases hps : s.popSingle now vt with ⟨o, b, s'⟩
      rw [hps] at h1 h4 h5
      cases o with
      | none => simp only; have := h5 rfl; simp only at this; rw [this]; exact hm
      | some m' =>
        obtain ⟨h6, m0, h7, h8, h9⟩ := h4 m' rfl
        simp only at h6 ⊢
        refine ih h1 i m ?_ hs
        rw [h6]
        by_cases hi : i = m'.id
        · rw [hi, h7] at hm; cases hm; exact absurd h8 hs
        · rw [fset_ne _ _ hi]; exact hm
  intro n
  induction n with
  | zero => intro s r fl _ m hm; simp [QState.takeBatch] at hm
  | succ n ih =>
    intro s r fl h m hm
    obtain ⟨h1, h2, h3, h4, h5⟩ := SR.popSingle (d := []) h now vt
    simp only [QState.takeBatch] at hm ⊢
    rcases hps : s.popSingle now vt with ⟨o, b, s'⟩
    rw [hps] at h1 h4 h5 hm
    cases o with
    | none => simp at hm
    | some m' =>
      obtain ⟨h6, m0, h7, h8, h9⟩ := h4 m' rfl
      simp only at h6 hm ⊢
      rcases List.mem_cons.1 hm with rfl | hm
      · have hst : m.state = .inFlight (now + vt) := by rw [h9]
        exact ⟨keep n h1 m.id m (by rw [h6]; simp) (by rw [hst]; simp), hst⟩
      · exact ih h1 m hm

/-- Conservation over histories. -/
theorem places_run : ∀ (ops : List Op) {q : QInner} {a : Q} {used : List Id}, RQ q a (· ∈ used) → Fresh used ops →
    (places (run q ops).1 ++ removed q ops).Perm (places q ++ pushed ops) := by
  intro ops
  induction ops with
  | nil => intro q a used _ _; exact List.Perm.refl _
  | cons op t ih =>
    intro q a used h hf
    obtain ⟨hok, hnew, hft⟩ := hf.cons
    obtain ⟨s1, s2, s3⟩ := h.stepU hok hnew
    have hi := ih s1 hft
    have v := h.view
    have v1 := s1.view
    have hp := Spec.Queue.step_perm (vt := q.cfg.visibilityTimeout) (mr := q.cfg.maxRetries) (tr := timeoutReason) v.distinct op.req
    have h1 : (places (step q op).1 ++ removedBy q op).Perm (places q ++ Spec.Queue.addedBy op.req) :=
      ((v1.places.append (v.removedBy op)).trans hp).trans (v.places.symm.append_right _)
    simp only [Verif.Queue.run, removed, pushed_cons]
    refine ((List.perm_append_comm (l₁ := removedBy q op)).append_left _ |>.trans ?_)
    rw [← List.append_assoc]
    refine (hi.append_right _).trans ?_
    rw [List.append_assoc]
    refine ((List.perm_append_comm (l₁ := pushed t)).append_left _).trans ?_
    rw [← List.append_assoc, ← List.append_assoc]
    exact h1.append_right _

/-- A message that is out until `due` (or gone) is not handed out while nothing releases it. -/
theorem held_run {id due : Nat} : ∀ (ops : List Op) {q : QInner} {a : Q} {used : List Id}, RQ q a (· ∈ used) → Fresh used ops →
    Held id due a → (∀ op ∈ ops, ¬ Spec.Queue.releases id due op.req) → id ∈ used →
    ∀ out ∈ (run q ops).2, id ∉ out.delivered := by
  intro ops
  induction ops with
  | nil => intro q a used _ _ _ _ _ out hout; simp [Verif.Queue.run] at hout
  | cons op t ih =>
    intro q a used h hf hh hr hid out hout
    obtain ⟨hok, hnew, hft⟩ := hf.cons
    obtain ⟨s1, s2, s3⟩ := h.stepU hok hnew
    have v := h.view
    obtain ⟨k1, k2⟩ := Held.step (vt := q.cfg.visibilityTimeout) (mr := q.cfg.maxRetries) (tr := timeoutReason)
      v.distinct hh op.req (hr op (List.mem_cons_self ..)) (by rw [addedBy_pushId]; exact fun hm => hnew id hm hid)
    simp only [Verif.Queue.run] at hout
    rcases List.mem_cons.1 hout with rfl | hout
    · rw [s3]; exact k2
    · exact ih s1 hft k1 (fun o ho => hr o (List.mem_cons_of_mem _ ho)) (List.mem_append_left _ hid) out hout

/-- A message that is gone stays away. -/
theorem gone_run {id : Nat} : ∀ (ops : List Op) {q : QInner} {a : Q} {used : List Id}, RQ q a (· ∈ used) → Fresh used ops →
    id ∉ a.ids → id ∈ used →
    (∀ out ∈ (run q ops).2, id ∉ out.delivered) ∧
    ∃ a', RQ (run q ops).1 a' (· ∈ used ++ pushIds ops) ∧ id ∉ a'.ids := by
  intro ops
  induction ops with
  | nil =>
    intro q a used h _ hg _
    exact ⟨by simp [Verif.Queue.run], a, h.mono (by intro i hi; simpa [pushIds] using hi), hg⟩
  | cons op t ih =>
    intro q a used h hf hg hid
    obtain ⟨hok, hnew, hft⟩ := hf.cons
    obtain ⟨s1, s2, s3⟩ := h.stepU hok hnew
    have v := h.view
    have hg' : id ∉ (sstep q.cfg a op).1.ids := by
      intro hm
      rcases Spec.Queue.ids_step v.distinct op.req hm with hm | hm
      · exact hg hm
      · rw [addedBy_pushId] at hm; exact hnew id hm hid
    obtain ⟨i1, a', i2, i3⟩ := ih s1 hft hg' (List.mem_append_left _ hid)
    refine ⟨?_, a', by rw [pushIds_cons, ← List.append_assoc]; exact i2, i3⟩
    intro out hout
    simp only [Verif.Queue.run] at hout
    rcases List.mem_cons.1 hout with rfl | hout
    · rw [s3]
      intro hdel
      obtain ⟨x, hx, hxi⟩ := List.mem_map.1 (Spec.Queue.delivered_mem op.req hdel)
      exact hg (hxi ▸ Spec.Queue.mem_ids_ready hx)
    · exact i1 out hout

theorem budget_run {id : Nat} : ∀ (ops : List Op) {q : QInner} {a : Q} {used : List Id}, RQ q a (· ∈ used) → Fresh used ops →
    (∀ op ∈ ops, op ≠ .moveToQueue id) →
    ∃ a', RQ (run q ops).1 a' (· ∈ used ++ pushIds ops) ∧
    deliveries id (run q ops).2 + Spec.Queue.budget q.cfg.maxRetries id a' ≤
      Spec.Queue.budget q.cfg.maxRetries id a + max 1 q.cfg.maxRetries * (pushIds ops).count id := by
  intro ops
  induction ops with
  | nil => intro q a used h _ _; exact ⟨a, h.mono (by intro i hi; simpa [pushIds] using hi), by simp [Verif.Queue.run, deliveries]⟩
  | cons op t ih =>
    intro q a used h hf hm
    obtain ⟨hok, hnew, hft⟩ := hf.cons
    obtain ⟨s1, s2, s3⟩ := h.stepU hok hnew
    have hop : op.req ≠ .moveToQueue id := by
      have := hm op (List.mem_cons_self ..)
      cases op <;> simp_all [Op.req]
    have b1 := Spec.Queue.budget_step (vt := q.cfg.visibilityTimeout) (mr := q.cfg.maxRetries) (tr := timeoutReason) (q := a) op.req hop
    obtain ⟨a', i1, hi⟩ := ih s1 hft (fun o ho => hm o (List.mem_cons_of_mem _ ho))
    refine ⟨a', by rw [pushIds_cons, ← List.append_assoc]; exact i1, ?_⟩
    rw [step_cfg] at hi
    rw [addedBy_pushId] at b1
    simp only [Verif.Queue.run, deliveries, List.flatMap_cons, List.count_append, pushIds_cons, Nat.mul_add] at hi ⊢
    rw [s3]
    simp only [sstep] at hi ⊢
    omega

/-- From any state, a message is handed out at most `max 1 maxRetries` times unless it is replayed. -/
theorem deliveries_run {id : Nat} {ops : List Op} {q : QInner} {a : Q} {used : List Id} (h : RQ q a (· ∈ used)) (hf : Fresh used ops)
    (hm : ∀ op ∈ ops, op ≠ .moveToQueue id) : deliveries id (run q ops).2 ≤ max 1 q.cfg.maxRetries := by
  obtain ⟨a', _, hb⟩ := budget_run ops h hf hm
  by_cases hin : id ∈ a.ids
  · have hu := h.ids_used hin
    have hc : (pushIds ops).count id = 0 := List.count_eq_zero.2 (fun hh => hf.2.2 id hh hu)
    rw [hc] at hb
    have := Spec.Queue.budget_le (mr := q.cfg.maxRetries) (id := id) h.view.distinct
    omega
  · rw [Spec.Queue.budget_zero hin] at hb
    have hc : (pushIds ops).count id ≤ 1 := List.nodup_iff_count.1 hf.2.1 id
    have : max 1 q.cfg.maxRetries * (pushIds ops).count id ≤ max 1 q.cfg.maxRetries * 1 := Nat.mul_le_mul_left _ hc
    omega

/-- After a successful ACK the message is nowhere in the queue. -/
theorem ack_gone {q : QInner} {a : Q} {used : List Id} (h : RQ q a (· ∈ used)) {id : Id}
    (hack : (step q (.ack id)).2.1 = .bool true) : id ∉ (sstep q.cfg a (.ack id)).1.ids ∧ id ∈ used := by
  obtain ⟨s1, s2, s3⟩ := h.stepU (op := .ack id) trivial (by simp [Op.pushId])
  simp only [Op.pushId, List.append_nil] at s1
  have v := h.view
  rw [hack] at s2
  simp only [Out.ans, sstep, Op.req, Spec.Queue.step, Option.some.injEq, Ans.bool.injEq] at s2
  have hlive : id ∈ a.ready.map (·.id) ∨ id ∈ a.flight.map (·.2.id) := by
    have := s2.symm
    rw [Bool.or_eq_true] at this
    rcases this with hh | hh
    · left
      obtain ⟨x, hx⟩ := Option.isSome_iff_exists.1 hh
      exact List.mem_map.2 ⟨x, List.mem_of_find?_eq_some hx, by simpa using List.find?_some hx⟩
    · right
      obtain ⟨x, hx⟩ := Option.isSome_iff_exists.1 hh
      obtain ⟨e, he, hex⟩ := Option.map_eq_some_iff.1 hx
      exact List.mem_map.2 ⟨e, List.mem_of_find?_eq_some he, by simpa using List.find?_some he⟩
  have hids : id ∈ a.ids := by
    rw [Spec.Queue.ids_eq]
    rcases hlive with hh | hh
    · exact List.mem_append_left _ hh
    · exact List.mem_append_right _ (List.mem_append_left _ hh)
  have hu := h.ids_used hids
  have hgone : id ∉ (sstep q.cfg a (.ack id)).1.ids := by
    rw [Spec.Queue.ids_eq]
    simp only [sstep, Op.req, Spec.Queue.step, Spec.Queue.settle, List.mem_append, List.mem_map, not_or, not_exists, not_and]
    refine ⟨?_, ?_, ?_⟩
    · intro y hy; simpa [Spec.Queue.dropReady] using (List.mem_filter.1 hy).2
    · intro y hy; simpa [Spec.Queue.dropFlight] using (List.mem_filter.1 hy).2
    · intro d hd hdi
      rcases hlive with hh | hh
      · obtain ⟨x, hx, hxi⟩ := List.mem_map.1 hh
        exact Spec.Queue.Distinct.rd v.distinct hx hd (hxi.trans hdi.symm)
      · obtain ⟨e, he, hei⟩ := List.mem_map.1 hh
        exact Spec.Queue.Distinct.fd v.distinct he hd (hei.trans hdi.symm)
  exact ⟨hgone, hu⟩

end Verif.Queue
