import Verif.Proofs.QueueHist

/-!
# Properties C22–C30 of the queue

`Reachable cfg used q`: the queue `q` with configuration `cfg` can arise by some history of requests,
storage commits and restarts, in which the ids `used` were given out.  `Fresh used ops`: a history of
requests that can follow (new ids are new).  `waiting q`, `inFlight q`, `deadLetters q` are what the
listing calls show (`Verif.Spec.QueueObs`).
-/

namespace Verif.Queue

open Spec.Queue (Item Dead Q Core Req Ans Held)

/-! ## A concrete history, used below to show that the hypotheses can be met

Three messages are pushed (priorities 1, 5, 1), two are handed out, one of these fails. -/

def exCfg : Config := { visibilityTimeout := 100, maxRetries := 2 }

def exEvents : List Event :=
  [.op (.push 1 [10] 1 0), .op (.push 2 [20] 5 1), .op (.push 3 [30] 1 2), .commit 2, .op (.consume 2 10),
   .op (.nack 2 [120] 11)]

def exQ : QInner := ((Sys.new exCfg).run exEvents).1.q

theorem exQ_reachable : Reachable exCfg [1, 2, 3] exQ := ⟨exEvents, by decide, rfl, rfl⟩

example : (waiting exQ).map (·.id) = [3, 2] ∧ (inFlight exQ).map (·.id) = [1] := by decide

/-! ## Small facts about the views -/

theorem View.mem_wait {q : QInner} {a : Q} (v : View q a) {x : Item} : x ∈ a.ready ↔ ∃ m ∈ waiting q, m.item = x := by
  rw [← v.wait.mem_iff, List.mem_map]

theorem View.mem_flight {q : QInner} {a : Q} (v : View q a) {e : Nat × Item} :
    e ∈ a.flight ↔ ∃ m ∈ inFlight q, (m.due, m.item) = e := by
  rw [← v.flight, List.mem_map]

theorem View.mem_dead {q : QInner} {a : Q} (v : View q a) {d : Dead} :
    d ∈ a.dead ↔ ∃ m ∈ deadLetters q, m.dead = d := by
  rw [← List.mem_reverse, ← v.dead, List.mem_map]

theorem DlqMsg.dead_inj {d d' : DlqMsg} (h : d.dead = d'.dead) : d = d' := by
  cases d; cases d'
  simp only [DlqMsg.dead, Dead.mk.injEq, Item.mk.injEq] at h
  obtain ⟨⟨h1, h2, h3, h4, h5⟩, h6, h7⟩ := h
  subst h1 h2 h3 h4 h5 h6 h7; rfl

theorem map_dead_inj {l l' : List DlqMsg} (h : l.map DlqMsg.dead = l'.map DlqMsg.dead) : l = l' := by
  induction l generalizing l' with
  | nil => cases l' <;> simp_all
  | cons x t ih =>
    cases l' with
    | nil => simp at h
    | cons y t' =>
      simp only [List.map_cons, List.cons.injEq] at h
      rw [DlqMsg.dead_inj h.1, ih h.2]

theorem Fresh.single {used : List Id} {op : Op} (hok : op.ok) (hp : ∀ id ∈ op.pushId, id ∉ used) : Fresh used [op] := by
  refine ⟨by intro o ho; simp at ho; subst ho; exact hok, ?_, ?_⟩
  · rw [pushIds_cons]; cases op <;> simp [Op.pushId, pushIds]
  · intro id hid; rw [pushIds_cons] at hid; exact hp id (by simpa [pushIds] using hid)

/-! ## C22 -/

/-- C22: whatever is requested, everything that was in the queue or was pushed is, afterwards, in the
queue (waiting, in flight or dead-lettered: `places`) or was removed by an ACK, a delete or a purge;
with its payload, priority and time of creation; and nothing is in two places. -/
theorem C22_conservation {cfg : Config} {used : List Id} {q : QInner} (hr : Reachable cfg used q)
    {ops : List Op} (hf : Fresh used ops) :
    (places (run q ops).1 ++ removed q ops).Perm (places q ++ pushed ops) ∧
    ((places (run q ops).1).map (·.1)).Nodup := by
  obtain ⟨hc, a, h⟩ := hr.inv
  refine ⟨places_run ops h hf, ?_⟩
  have v := (h.runU hf).1.view
  exact (v.places.map (fun c : Core => c.1)).nodup_iff.2 v.distinct

example : Fresh [1, 2, 3] [.push 4 [40] 9 20, .consume 3 30, .ack 4, .nack 3 [] 40, .tick 200 200, .purgeDlq] ∧
    (places (run exQ [.push 4 [40] 9 20, .consume 3 30, .ack 4, .nack 3 [] 40, .tick 200 200, .purgeDlq]).1).map (·.1) = [3, 1] ∧
    (removed exQ [.push 4 [40] 9 20, .consume 3 30, .ack 4, .nack 3 [] 40, .tick 200 200, .purgeDlq]).map (·.1) = [4, 2] := by decide

/-! ## C23 -/

/-- C23: a new queue answers every history exactly like the reference queue that keeps waiting messages
in the order in which they became waiting and always hands out the first of those with the highest
priority (`Spec.Queue.runArr`, `Spec.Queue.pick`). -/
theorem C23_priority_then_arrival (cfg : Config) {ops : List Op} (hf : Fresh [] ops) :
    (run (QInner.empty cfg) ops).2.map Out.ans =
      (Spec.Queue.runArr cfg.visibilityTimeout cfg.maxRetries timeoutReason .empty (ops.map Op.req)).2.map some := by
  have h := (RQ.init cfg (· ∈ ([] : List Id))).runU hf
  rw [h.2.1]
  have hadd : Spec.Queue.addedIds (ops.map Op.req) = pushIds ops := by
    clear hf h
    induction ops with
    | nil => rfl
    | cons op t ih =>
      simp only [Spec.Queue.addedIds, List.map_cons, List.flatMap_cons] at ih ⊢
      rw [ih, pushIds_cons, addedBy_pushId]
  rw [Spec.Queue.runArr_spec (ops.map Op.req) (q := .empty) (qa := .empty) ⟨rfl, rfl, rfl⟩ (by simp [Spec.Queue.Q.Distinct, Spec.Queue.Q.ids, Spec.Queue.Q.cores, Spec.Queue.Q.empty])
    (by rw [hadd]; exact hf.2.1) (by intro id _; simp [Spec.Queue.Q.ids, Spec.Queue.Q.cores, Spec.Queue.Q.empty])]
  rfl

example : Fresh [] [.push 1 [] 1 0, .push 2 [] 5 0, .push 3 [] 5 0, .consume 2 0, .nack 2 [] 0, .push 4 [] 5 0, .consume 5 0] ∧
    (run (QInner.empty exCfg) [.push 1 [] 1 0, .push 2 [] 5 0, .push 3 [] 5 0, .consume 2 0, .nack 2 [] 0, .push 4 [] 5 0, .consume 5 0]).2.map Out.delivered
      = [[], [], [], [2, 3], [], [], [2, 4, 1]] := by decide

theorem lineSorted {q : QInner} {a : Q} {used : Id → Prop} (h : RQ q a used) :
    Spec.Queue.SortedP a.ready := by
  obtain ⟨st, _⟩ := h
  have hb := RS.bsd st
  have hk := RS.kd st
  have hid := RS.idr st
  -- priorities along the reversed index decrease
  have key : ∀ (ix : Index), BSorted ix → BKeyed (prioK (mget q.state.registry)) ix →
      (revFlat ix).Pairwise (fun i j => prioK (mget q.state.registry) j ≤ prioK (mget q.state.registry) i) := by
    intro ix
    induction ix with
    | nil => intro _ _; exact List.Pairwise.nil
    | cons e t ih =>
      intro hs hkk
      rw [revFlat_cons, List.pairwise_append]
      refine ⟨ih hs.tail (fun x hx => hkk x (List.mem_cons_of_mem _ hx)), ?_, ?_⟩
      · refine List.pairwise_of_forall_mem_list ?_
        intro i hi j hj
        rw [hkk e (List.mem_cons_self ..) i hi, hkk e (List.mem_cons_self ..) j hj]
        exact Nat.le_refl _
      · intro i hi j hj
        obtain ⟨x, hx, hxi⟩ := mem_flat.1 (mem_revFlat.1 hi)
        rw [hkk x (List.mem_cons_of_mem _ hx) i hxi, hkk e (List.mem_cons_self ..) j hj]
        exact Nat.le_of_lt (hs.head x hx)
  have := key _ hb hk
  rw [hid, List.pairwise_map] at this
  unfold Spec.Queue.SortedP
  refine this.imp_of_mem ?_
  intro x y hx hy hxy
  rw [RS.prio_eq st hx, RS.prio_eq st hy] at hxy
  exact hxy

/-- C23, for any reachable queue (also after restarts): a batch is sorted by decreasing priority, and no
message left waiting outranks a message of the batch. -/
theorem C23_batch_sorted {cfg : Config} {used : List Id} {q : QInner} (hr : Reachable cfg used q)
    {n now : Nat} (hn : (Op.consume n now).ok) :
    ∃ l, (step q (.consume n now)).2.1 = .msgs l ∧ l.Pairwise (fun x y => y.priority ≤ x.priority) ∧
      ∀ x ∈ l, ∀ y ∈ waiting (step q (.consume n now)).1, y.priority ≤ x.priority := by
  obtain ⟨hc, a, h⟩ := hr.inv
  have hs := lineSorted h
  obtain ⟨s1, s2, s3⟩ := h.stepU (op := .consume n now) hn (by simp [Op.pushId])
  have v1 := s1.view
  have hk : ¬ (n * msgSize > isizeMax) := Nat.not_lt.2 hn
  have hm : (Verif.Queue.step q (.consume n now)).2.1 = .msgs (q.state.takeBatch now q.cfg.visibilityTimeout n).1 := by
    simp only [Verif.Queue.step, hk, if_false]
  rw [hm] at s2
  simp only [Out.ans, sstep, Op.req, Spec.Queue.step, Option.some.injEq, Ans.msgs.injEq] at s2
  obtain ⟨e1, e2, _⟩ := Spec.Queue.serveN_eq (now + q.cfg.visibilityTimeout) n a
  rw [e1] at s2
  have hpw : (a.ready.take n ++ a.ready.drop n).Pairwise (fun x y => y.priority ≤ x.priority) := by
    rw [List.take_append_drop]; exact hs
  obtain ⟨p1, _, p3⟩ := List.pairwise_append.1 hpw
  refine ⟨_, hm, ?_, ?_⟩
  · have h4 : ((q.state.takeBatch now q.cfg.visibilityTimeout n).1.map Msg.item).Pairwise (fun x y => y.priority ≤ x.priority) := by
      rw [s2, List.pairwise_map]; exact p1
    rw [List.pairwise_map] at h4; exact h4
  · intro x hx y hy
    have hx' : x.item ∈ (a.ready.take n).map Item.bump := by rw [← s2]; exact List.mem_map.2 ⟨x, hx, rfl⟩
    obtain ⟨x0, hx0, hxx⟩ := List.mem_map.1 hx'
    have hy' : y.item ∈ (sstep q.cfg a (.consume n now)).1.ready := v1.mem_wait.2 ⟨y, hy, rfl⟩
    simp only [sstep, Op.req, Spec.Queue.step, e2] at hy'
    have := p3 x0 hx0 y.item hy'
    have hp : x.priority = x0.priority := (congrArg Item.priority hxx).symm
    rw [hp]; exact this

example : (Op.consume 2 20).ok ∧ ((step exQ (.consume 2 20)).2.1.delivered = [2, 3]) := by decide

/-! ## C24 -/

/-- C24: a consume with batch size `n` (one that can be allocated) returns exactly `min n (number waiting)`
messages, each once, all of them waiting before; afterwards the rest is waiting and the batch is in flight
until `now + visibility timeout`. -/
theorem C24_consume_exact_partial {cfg : Config} {used : List Id} {q : QInner} (hr : Reachable cfg used q)
    {n now : Nat} (hn : (Op.consume n now).ok) :
    ∃ l, (step q (.consume n now)).2.1 = .msgs l ∧
      l.length = min n (waiting q).length ∧ (l.map (·.id)).Nodup ∧
      ((waiting q).map (·.id)).Perm (l.map (·.id) ++ (waiting (step q (.consume n now)).1).map (·.id)) ∧
      (∀ m ∈ l, m ∈ inFlight (step q (.consume n now)).1 ∧ m.due = now + cfg.visibilityTimeout) ∧
      (∀ m ∈ inFlight (step q (.consume n now)).1, m ∈ l ∨ ∃ m' ∈ inFlight q, m'.item = m.item ∧ m'.due = m.due) ∧
      (∀ m ∈ inFlight q, ∃ m' ∈ inFlight (step q (.consume n now)).1, m'.item = m.item ∧ m'.due = m.due) := by
  obtain ⟨hc, a, h⟩ := hr.inv
  subst hc
  obtain ⟨s1, s2, s3⟩ := h.stepU (op := .consume n now) hn (by simp [Op.pushId])
  have v := h.view
  have v1 := s1.view
  have hk : ¬ (n * msgSize > isizeMax) := Nat.not_lt.2 hn
  have hm : (Verif.Queue.step q (.consume n now)).2.1 = .msgs (q.state.takeBatch now q.cfg.visibilityTimeout n).1 := by
    simp only [Verif.Queue.step, hk, if_false]
  have hst : (Verif.Queue.step q (.consume n now)).1.state = (q.state.takeBatch now q.cfg.visibilityTimeout n).2.2 := by
    simp only [Verif.Queue.step, hk, if_false]
  have hreg := takeBatch_mem now q.cfg.visibilityTimeout n h.st
  rw [hm] at s2
  simp only [Out.ans, sstep, Op.req, Spec.Queue.step, Option.some.injEq, Ans.msgs.injEq] at s2
  obtain ⟨e1, e2, e3, e4⟩ := Spec.Queue.serveN_eq (now + q.cfg.visibilityTimeout) n a
  rw [e1] at s2
  have hl : (waiting q).length = a.ready.length := by rw [← v.wait.length_eq, List.length_map]
  have hids : (q.state.takeBatch now q.cfg.visibilityTimeout n).1.map (·.id) = (a.ready.take n).map (·.id) := by
    have := congrArg (List.map Item.id) s2
    rw [List.map_map, List.map_map] at this
    exact this
  have hbatch : ∀ m ∈ (q.state.takeBatch now q.cfg.visibilityTimeout n).1,
      m ∈ inFlight (Verif.Queue.step q (.consume n now)).1 ∧ m.due = now + q.cfg.visibilityTimeout := by
    intro m hmem
    obtain ⟨g1, g2⟩ := hreg m hmem
    have hr' : mget (Verif.Queue.step q (.consume n now)).1.state.registry m.id = some m := by rw [hst]; exact g1
    refine ⟨?_, by simp only [Msg.due, g2]⟩
    rcases (v1.reg m).2 hr' with hw | hf
    · have := v1.waitReady m hw; rw [g2] at this; cases this
    · exact hf
  refine ⟨_, hm, ?_, ?_, ?_, hbatch, ?_, ?_⟩
  · have := congrArg List.length s2
    simp only [List.length_map, List.length_take] at this
    rw [this, hl]
  · rw [hids]; exact ((List.take_sublist n a.ready).map _).nodup (Spec.Queue.Distinct.ready v.distinct)
  · have w0 : ((waiting q).map (·.id)).Perm (a.ready.map (·.id)) := by
      have := v.wait.map Item.id
      rw [List.map_map] at this; exact this
    have w1 : ((waiting (Verif.Queue.step q (.consume n now)).1).map (·.id)).Perm ((a.ready.drop n).map (·.id)) := by
      have := v1.wait.map Item.id
      rw [List.map_map] at this
      simp only [sstep, Op.req, Spec.Queue.step, e2] at this
      exact this
    refine w0.trans ?_
    rw [hids]
    conv => lhs; rw [← List.take_append_drop n a.ready, List.map_append]
    exact List.Perm.append_left _ w1.symm
  · intro m hmem
    have := v1.mem_flight.2 ⟨m, hmem, rfl⟩
    simp only [sstep, Op.req, Spec.Queue.step, e4, Spec.Queue.mem_file_fold] at this
    rcases this with this | ⟨x, hx, hxe⟩
    · right
      obtain ⟨m', h1, h2⟩ := v.mem_flight.1 this
      simp only [Prod.mk.injEq] at h2
      exact ⟨m', h1, h2.2, h2.1⟩
    · left
      have hxi : m.item ∈ (q.state.takeBatch now q.cfg.visibilityTimeout n).1.map Msg.item := by
        rw [s2]
        simp only [Prod.mk.injEq] at hxe
        rw [hxe.2]
        exact List.mem_map.2 ⟨x, hx, rfl⟩
      obtain ⟨m', hm', hmi⟩ := List.mem_map.1 hxi
      have r1 := (v1.reg m).1 (Or.inr hmem)
      have r2 := (v1.reg m').1 (Or.inr (hbatch m' hm').1)
      have : m'.id = m.id := congrArg Item.id hmi
      rw [this, r1] at r2
      cases r2; exact hm'
  · intro m hmem
    have := v.mem_flight.2 ⟨m, hmem, rfl⟩
    have h1 : (m.due, m.item) ∈ (sstep q.cfg a (.consume n now)).1.flight := by
      simp only [sstep, Op.req, Spec.Queue.step, e4, Spec.Queue.mem_file_fold]
      exact Or.inl this
    obtain ⟨m', h2, h3⟩ := v1.mem_flight.1 h1
    simp only [Prod.mk.injEq] at h3
    exact ⟨m', h2, h3.2, h3.1⟩

/-- The full claim fails: a batch size of 2^60 makes the allocation panic, whatever the queue holds; no
message is returned. -/
theorem C24_huge_batch_panics (q : QInner) (now : Nat) :
    step q (.consume (2 ^ 60) now) = (q, .panicked, []) := by
  have : 2 ^ 60 * msgSize > isizeMax := by decide
  simp only [step, this, if_true]

example : (Op.consume 5 20).ok ∧ (waiting exQ).length = 2 ∧ (step exQ (.consume 5 20)).2.1.delivered = [2, 3] := by decide

/-! ## C25 -/

/-- C25: a message handed out at `now` is not handed out again by any later request, unless a NACK of it
or a timeout check at or after `now + visibility timeout` comes first. -/
theorem C25_exclusive {cfg : Config} {used : List Id} {q : QInner} (hr : Reachable cfg used q)
    {op : Op} {now : Nat} (hop : op = .pop now ∨ ∃ n, op = .consume n now) (hok : op.ok)
    {id : Id} (hid : id ∈ (step q op).2.1.delivered)
    {ops : List Op} (hf : Fresh used ops)
    (hnack : ∀ reason t, Op.nack id reason t ∉ ops)
    (htick : ∀ t t', Op.tick t t' ∈ ops → t' < now + cfg.visibilityTimeout) :
    ∀ out ∈ (run (step q op).1 ops).2, id ∉ out.delivered := by
  obtain ⟨hc, a, h⟩ := hr.inv
  subst hc
  have hp : op.pushId = [] := by rcases hop with rfl | ⟨n, rfl⟩ <;> rfl
  obtain ⟨s1, s2, s3⟩ := h.stepU (op := op) hok (by rw [hp]; simp)
  rw [hp, List.append_nil] at s1
  rw [s3] at hid
  have hheld := Spec.Queue.delivered_held (vt := q.cfg.visibilityTimeout) (mr := q.cfg.maxRetries) (tr := timeoutReason) (q := a)
    op.req (id := id) (now := now) (by
      rcases hop with rfl | ⟨n, rfl⟩
      · exact Or.inl rfl
      · exact Or.inr ⟨n, rfl⟩) hid
  have hmem := Spec.Queue.delivered_mem op.req hid
  obtain ⟨x, hx, hxi⟩ := List.mem_map.1 hmem
  have hu := h.ids_used (id := id) (hxi ▸ Spec.Queue.mem_ids_ready hx)
  refine held_run ops s1 hf hheld ?_ hu
  intro o ho hrel
  cases o with
  | nack i reason t =>
    have : i = id := hrel
    subst this
    exact hnack reason t ho
  | tick t t' =>
    have : now + q.cfg.visibilityTimeout ≤ t' := hrel
    have := htick t t' ho
    omega
  | _ => exact hrel

example : Fresh [1, 2, 3] [.consume 9 50, .push 7 [] 200 60, .tick 109 109, .pop 109] ∧
    2 ∈ (step exQ (.pop 10)).2.1.delivered ∧
    (run (step exQ (.pop 10)).1 [.consume 9 50, .push 7 [] 200 60, .tick 109 109, .pop 109]).2.map Out.delivered = [[3], [], [], [7]] := by decide

/-! ## C26 -/

/-- C26: when the timeout task runs (first clock reading `now`, second `now'`), every message in flight
whose timeout has passed is afterwards waiting again (if it has attempts left) or in the dead-letter list
with reason "Timeout"; messages not yet due stay in flight with the same timeout; nothing overdue stays in
flight; waiting messages and dead letters stay. -/
theorem C26_timeout {cfg : Config} {used : List Id} {q : QInner} (hr : Reachable cfg used q)
    {now now' : Nat} (hnow : now ≤ now') :
    let q' := (step q (.tick now now')).1
    (∀ m ∈ inFlight q, m.due ≤ now →
      (m.attempts < cfg.maxRetries ∧ ∃ m' ∈ waiting q', m'.item = m.item) ∨
      (cfg.maxRetries ≤ m.attempts ∧ DlqMsg.ofMsg m timeoutReason now' ∈ deadLetters q')) ∧
    (∀ m ∈ inFlight q, now' < m.due → ∃ m' ∈ inFlight q', m'.item = m.item ∧ m'.due = m.due) ∧
    (∀ m ∈ inFlight q', now < m.due ∧ ∃ m' ∈ inFlight q, m'.item = m.item ∧ m'.due = m.due) ∧
    (∀ m ∈ waiting q, ∃ m' ∈ waiting q', m'.item = m.item) ∧
    (∀ d ∈ deadLetters q, d ∈ deadLetters q') := by
  obtain ⟨hc, a, h⟩ := hr.inv
  subst hc
  obtain ⟨s1, s2, s3⟩ := h.stepU (op := .tick now now') trivial (by simp [Op.pushId])
  have v := h.view
  have v1 := s1.view
  simp only [sstep, Op.req, Spec.Queue.step] at v1
  intro q'
  by_cases hany : a.flight.any (fun e => decide (e.1 ≤ now)) = true
  · rw [if_pos hany] at v1
    refine ⟨?_, ?_, ?_, ?_, ?_⟩
    · intro m hm hdue
      have hma := v.mem_flight.2 ⟨m, hm, rfl⟩
      have hin : m.item ∈ (a.flight.filter (fun e => decide (e.1 ≤ now'))).map (·.2) :=
        List.mem_map.2 ⟨_, List.mem_filter.2 ⟨hma, by simp only [decide_eq_true_eq]; omega⟩, rfl⟩
      by_cases hatt : m.attempts < q.cfg.maxRetries
      · left
        refine ⟨hatt, v1.mem_wait.1 ?_⟩
        exact Spec.Queue.mem_lineUp_fold.2 (Or.inr (List.mem_filter.2 ⟨hin, decide_eq_true hatt⟩))
      · right
        refine ⟨Nat.not_lt.1 hatt, ?_⟩
        have : (⟨m.item, now', timeoutReason⟩ : Dead) ∈ (Spec.Queue.expire q.cfg.maxRetries timeoutReason now' a).dead :=
          List.mem_append_right _ (List.mem_map.2 ⟨m.item, List.mem_filter.2 ⟨hin, decide_eq_true (Nat.not_lt.1 hatt)⟩, rfl⟩)
        obtain ⟨d, hd, hdd⟩ := v1.mem_dead.1 this
        have : d = DlqMsg.ofMsg m timeoutReason now' := DlqMsg.dead_inj (by rw [hdd]; rfl)
        rw [← this]; exact hd
    · intro m hm hdue
      have hma := v.mem_flight.2 ⟨m, hm, rfl⟩
      have h2 : (m.due, m.item) ∈ (Spec.Queue.expire q.cfg.maxRetries timeoutReason now' a).flight :=
        List.mem_filter.2 ⟨hma, by simpa using hdue⟩
      obtain ⟨m', h3, h4⟩ := v1.mem_flight.1 h2
      simp only [Prod.mk.injEq] at h4
      exact ⟨m', h3, h4.2, h4.1⟩
    · intro m hm
      have hma := v1.mem_flight.2 ⟨m, hm, rfl⟩
      obtain ⟨h2, h3⟩ := List.mem_filter.1 hma
      simp only [decide_eq_true_eq] at h3
      obtain ⟨m', h4, h5⟩ := v.mem_flight.1 h2
      simp only [Prod.mk.injEq] at h5
      exact ⟨by omega, m', h4, h5.2, h5.1⟩
    · intro m hm
      exact v1.mem_wait.1 (Spec.Queue.mem_lineUp_fold.2 (Or.inl (v.mem_wait.2 ⟨m, hm, rfl⟩)))
    · intro d hd
      obtain ⟨d', h1, h2⟩ := v1.mem_dead.1 (List.mem_append_left _ (v.mem_dead.2 ⟨d, hd, rfl⟩))
      rw [← DlqMsg.dead_inj h2]; exact h1
  · rw [if_neg hany] at v1
    have hnone : ∀ m ∈ inFlight q, now < m.due := by
      intro m hm
      apply Nat.not_le.1
      intro hle
      exact hany (List.any_eq_true.2 ⟨_, v.mem_flight.2 ⟨m, hm, rfl⟩, by simpa using hle⟩)
    refine ⟨?_, ?_, ?_, ?_, ?_⟩
    · intro m hm hdue; have := hnone m hm; omega
    · intro m hm _
      obtain ⟨m', h3, h4⟩ := v1.mem_flight.1 (v.mem_flight.2 ⟨m, hm, rfl⟩)
      simp only [Prod.mk.injEq] at h4
      exact ⟨m', h3, h4.2, h4.1⟩
    · intro m hm
      obtain ⟨m', h3, h4⟩ := v.mem_flight.1 (v1.mem_flight.2 ⟨m, hm, rfl⟩)
      simp only [Prod.mk.injEq] at h4
      exact ⟨by have := hnone m' h3; omega, m', h3, h4.2, h4.1⟩
    · intro m hm
      exact v1.mem_wait.1 (v.mem_wait.2 ⟨m, hm, rfl⟩)
    · intro d hd
      obtain ⟨d', h1, h2⟩ := v1.mem_dead.1 (v.mem_dead.2 ⟨d, hd, rfl⟩)
      rw [← DlqMsg.dead_inj h2]; exact h1

example : (inFlight exQ).map (fun m => (m.id, m.due)) = [(1, 110)] ∧
    (waiting (step exQ (.tick 110 111)).1).map (·.id) = [3, 1, 2] := by decide

/-! ## C27 -/

/-- C27: after a successful ACK, whatever happens, the message is never handed out again, is nowhere in
the queue or the dead-letter list, and another ACK reports failure. -/
theorem C27_ack_final {cfg : Config} {used : List Id} {q : QInner} (hr : Reachable cfg used q)
    {id : Id} (hack : (step q (.ack id)).2.1 = .bool true) {ops : List Op} (hf : Fresh used ops) :
    let r := run (step q (.ack id)).1 ops
    (∀ out ∈ r.2, id ∉ out.delivered) ∧ id ∉ (places r.1).map (·.1) ∧ (step r.1 (.ack id)).2.1 = .bool false := by
  obtain ⟨hc, a, h⟩ := hr.inv
  obtain ⟨s1, s2, s3⟩ := h.stepU (op := .ack id) trivial (by simp [Op.pushId])
  simp only [Op.pushId, List.append_nil] at s1
  obtain ⟨hgone, hu⟩ := ack_gone h hack
  intro r
  obtain ⟨g1, a', g2, g3⟩ := gone_run ops s1 hf hgone hu
  have v' := g2.view
  refine ⟨g1, ?_, ?_⟩
  · intro hm
    exact g3 ((v'.places.map (fun c : Core => c.1)).mem_iff.1 hm)
  · obtain ⟨_, t2⟩ := RQ.step g2 (.ack id) trivial (by simp [Op.pushId])
    have hno : ((Spec.Queue.lookupReady id a').isSome || (Spec.Queue.lookupFlight id a').isSome) = false := by
      rw [Bool.or_eq_false_iff]
      rw [Spec.Queue.ids_eq] at g3
      constructor
      · have : Spec.Queue.lookupReady id a' = none := find_none (k := Item.id) (fun hh => g3 (List.mem_append_left _ hh))
        rw [this]; rfl
      · have := find_none (k := fun e : Nat × Item => e.2.id) (l := a'.flight) (i := id)
          (fun hh => g3 (List.mem_append_right _ (List.mem_append_left _ hh)))
        unfold Spec.Queue.lookupFlight
        rw [this]; rfl
    simp only [sstep, Op.req, Spec.Queue.step, hno] at t2
    have hb : ∃ b, (step r.1 (.ack id)).2.1 = .bool b := ⟨_, rfl⟩
    obtain ⟨b, hb⟩ := hb
    rw [hb] at t2 ⊢
    simp only [Out.ans, Option.some.injEq, Ans.bool.injEq] at t2
    rw [t2]

example : (step exQ (.ack 1)).2.1 = .bool true ∧ Fresh [1, 2, 3] [.tick 500 500, .consume 5 501, .peekDlq 10 0] := by decide

/-! ## C28 -/

/-- C28: in any part of a history without restart in which the message is not replayed from the
dead-letter list, it is handed out at most `max 1 maxRetries` times, whatever state the part starts in. -/
theorem C28_bounded_deliveries {cfg : Config} {used : List Id} {q : QInner} (hr : Reachable cfg used q)
    {ops : List Op} (hf : Fresh used ops) {id : Id} (hm : .moveToQueue id ∉ ops) :
    deliveries id (run q ops).2 ≤ max 1 cfg.maxRetries := by
  obtain ⟨hc, a, h⟩ := hr.inv
  rw [← hc]
  exact deliveries_run h hf (fun o ho hh => hm (hh ▸ ho))

example : Fresh [] [.push 1 [] 0 0, .pop 0, .nack 1 [] 0, .pop 0, .nack 1 [120] 5, .pop 6] ∧
    deliveries 1 (run (QInner.empty exCfg) [.push 1 [] 0 0, .pop 0, .nack 1 [] 0, .pop 0, .nack 1 [120] 5, .pop 6]).2 = 2 := by decide

/-- C28: a negative acknowledgement of a message that has used its attempts moves it to the dead-letter
list, as the newest entry, with its payload, priority, attempt count and the reason given. -/
theorem C28_dead_letter {cfg : Config} {used : List Id} {q : QInner} (hr : Reachable cfg used q)
    {m : Msg} (hm : m ∈ waiting q ∨ m ∈ inFlight q) (hatt : cfg.maxRetries ≤ m.attempts) (reason : Str) (now : Nat) :
    let r := step q (.nack m.id reason now)
    r.2.1 = .bool true ∧
    deadLetters r.1 = { id := m.id, payload := m.payload, priority := m.priority, attempts := m.attempts,
                        createdAt := m.createdAt, failedAt := now, reason := reason } :: deadLetters q ∧
    (∀ m' ∈ waiting r.1, m'.id ≠ m.id) ∧ (∀ m' ∈ inFlight r.1, m'.id ≠ m.id) := by
  obtain ⟨hc, a, h⟩ := hr.inv
  subst hc
  obtain ⟨s1, s2, s3⟩ := h.stepU (op := .nack m.id reason now) trivial (by simp [Op.pushId])
  have v := h.view
  have v1 := s1.view
  have hreg := (v.reg m).1 hm
  have hn := SR.nack (d := a.dead) h.st m.id reason q.cfg.maxRetries now
  simp only [hreg, hatt, if_true] at hn
  obtain ⟨n1, n2, n3, n4, n5⟩ := hn
  intro r
  have hreg1 : mget r.1.state.registry m.id = none := by
    show mget (step q (.nack m.id reason now)).1.state.registry m.id = none
    rcases hnn : q.state.nack m.id reason q.cfg.maxRetries now with ⟨o, s'⟩
    rw [hnn] at n3 n5
    simp only at n3 n5
    subst n3
    simp only [Verif.Queue.step, hnn, n5, fset_same]
  refine ⟨?_, ?_, ?_, ?_⟩
  · show (step q (.nack m.id reason now)).2.1 = .bool true
    rcases hnn : q.state.nack m.id reason q.cfg.maxRetries now with ⟨o, s'⟩
    rw [hnn] at n3
    simp only at n3
    subst n3
    simp only [Verif.Queue.step, hnn]
  · have hd := v1.dead
    simp only [sstep, Op.req, Spec.Queue.step] at hd
    rw [n4, List.reverse_append, ← v.dead] at hd
    apply map_dead_inj
    rw [hd]; rfl
  · intro m' hm' hid
    have := (v1.reg m').1 (Or.inl hm')
    rw [hid] at this
    have h2 : mget (step q (.nack m.id reason now)).1.state.registry m.id = none := hreg1
    rw [h2] at this; cases this
  · intro m' hm' hid
    have := (v1.reg m').1 (Or.inr hm')
    rw [hid] at this
    have h2 : mget (step q (.nack m.id reason now)).1.state.registry m.id = none := hreg1
    rw [h2] at this; cases this

/-- C28: a negative acknowledgement of a message with attempts left makes it wait again, with the same
attempt count. -/
theorem C28_requeued {cfg : Config} {used : List Id} {q : QInner} (hr : Reachable cfg used q)
    {m : Msg} (hm : m ∈ waiting q ∨ m ∈ inFlight q) (hatt : m.attempts < cfg.maxRetries) (reason : Str) (now : Nat) :
    let r := step q (.nack m.id reason now)
    r.2.1 = .bool true ∧ (∃ m' ∈ waiting r.1, m'.item = m.item) ∧ deadLetters r.1 = deadLetters q := by
  obtain ⟨hc, a, h⟩ := hr.inv
  subst hc
  obtain ⟨s1, s2, s3⟩ := h.stepU (op := .nack m.id reason now) trivial (by simp [Op.pushId])
  have v := h.view
  have v1 := s1.view
  have hreg := (v.reg m).1 hm
  have hn := SR.nack (d := a.dead) h.st m.id reason q.cfg.maxRetries now
  simp only [hreg, Nat.not_le.2 hatt, if_false] at hn
  obtain ⟨n1, n2, n3, n4, n5⟩ := hn
  intro r
  rcases hnn : q.state.nack m.id reason q.cfg.maxRetries now with ⟨o, s'⟩
  rw [hnn] at n3 n5
  simp only at n3 n5
  subst n3
  have hreg1 : mget r.1.state.registry m.id = some { m with failure := some reason, state := .ready, visibleAt := 0 } := by
    show mget (step q (.nack m.id reason now)).1.state.registry m.id = _
    simp only [Verif.Queue.step, hnn, n5, fset_same]
  refine ⟨?_, ?_, ?_⟩
  · show (step q (.nack m.id reason now)).2.1 = .bool true
    simp only [Verif.Queue.step, hnn]
  · refine ⟨{ m with failure := some reason, state := .ready, visibleAt := 0 }, ?_, rfl⟩
    rcases (v1.reg { m with failure := some reason, state := .ready, visibleAt := 0 }).2 hreg1 with h1 | h1
    · exact h1
    · have := v1.flightState _ h1; cases this
  · apply map_dead_inj
    have hd := v1.dead
    simp only [sstep, Op.req, Spec.Queue.step] at hd
    rw [n4, ← v.dead] at hd
    exact hd

example : (inFlight exQ).map (fun m => (m.id, m.attempts)) = [(1, 1)] ∧
    (inFlight (step exQ (.pop 20)).1).map (fun m => (m.id, m.attempts)) = [(1, 1), (2, 2)] ∧
    (deadLetters (step (step exQ (.pop 20)).1 (.nack 2 [120] 21)).1).map (fun d => (d.id, d.payload, d.priority, d.attempts, d.reason)) = [(2, [20], 5, 2, [120])] := by decide

/-! ## C29 -/

/-- C29: peeking pages through the dead letters (newest first, `C28_dead_letter`) and changes nothing. -/
theorem C29_peek (q : QInner) (limit offset : Nat) :
    step q (.peekDlq limit offset) =
      (q, .page (deadLetters q).length (((deadLetters q).drop offset).take limit), []) := by
  rw [deadLetters_eq]
  simp [step, dlqPeek]

theorem View.dead_mem_key {q : QInner} {a : Q} {used : Id → Prop} (h : RQ q a used) (d : DlqMsg) :
    d ∈ deadLetters q ↔ mget q.dlq d.id = some d := by
  rw [deadLetters_eq, List.mem_reverse, List.mem_map]
  constructor
  · rintro ⟨e, he, rfl⟩
    rw [← h.dkey e he]
    exact h.dwf.mem_iff.1 he
  · intro hg
    exact ⟨_, mget_some_mem hg, rfl⟩

theorem deadLetters_mdel {q : QInner} {a : Q} {used : Id → Prop} (h : RQ q a used) (id : Id) (s : QState) :
    deadLetters { q with state := s, dlq := mdel q.dlq id } = (deadLetters q).filter (fun d => d.id ≠ id) := by
  rw [deadLetters_eq, deadLetters_eq, List.filter_reverse, mdel, List.filter_map]
  congr 2
  apply List.filter_congr
  intro e he
  simp only [Function.comp]
  rw [h.dkey e he]

/-- C29: replay of a dead letter moves exactly that message back to waiting, with a fresh attempt count. -/
theorem C29_replay {cfg : Config} {used : List Id} {q : QInner} (hr : Reachable cfg used q)
    {d : DlqMsg} (hd : d ∈ deadLetters q) :
    let r := step q (.moveToQueue d.id)
    r.2.1 = .bool true ∧
    deadLetters r.1 = (deadLetters q).filter (fun d' => d'.id ≠ d.id) ∧
    ((waiting r.1).map Msg.item).Perm (⟨d.id, d.payload, d.priority, 0, d.createdAt⟩ :: (waiting q).map Msg.item) ∧
    (inFlight r.1).map (fun m => (m.due, m.item)) = (inFlight q).map (fun m => (m.due, m.item)) := by
  obtain ⟨hc, a, h⟩ := hr.inv
  subst hc
  obtain ⟨s1, s2, s3⟩ := h.stepU (op := .moveToQueue d.id) trivial (by simp [Op.pushId])
  have v := h.view
  have v1 := s1.view
  have hg := (View.dead_mem_key h d).1 hd
  have hl := h.lookDead d.id
  rw [hg] at hl
  simp only [sstep, Op.req, Spec.Queue.step, Spec.Queue.replay, hl, Option.map_some] at v1
  intro r
  have hr' : r = step q (.moveToQueue d.id) := rfl
  simp only [Verif.Queue.step, dlqRemove, hg] at hr'
  refine ⟨by rw [hr'], ?_, ?_, ?_⟩
  · rw [hr']; exact deadLetters_mdel h d.id _
  · exact v1.wait.trans ((Spec.Queue.lineUp_perm _ _).trans (v.wait.symm.cons _))
  · exact v1.flight.trans v.flight.symm

/-- C29: replay or deletion of something that is not a dead letter fails and changes nothing. -/
theorem C29_missing {cfg : Config} {used : List Id} {q : QInner} (hr : Reachable cfg used q)
    {id : Id} (hd : ∀ d ∈ deadLetters q, d.id ≠ id) :
    step q (.moveToQueue id) = (q, .bool false, []) ∧ step q (.deleteDlq id) = (q, .bool false, []) := by
  obtain ⟨hc, a, h⟩ := hr.inv
  have hg : mget q.dlq id = none := by
    cases hg : mget q.dlq id with
    | none => rfl
    | some d =>
      have hdid : d.id = id := (h.dkey _ (mget_some_mem hg)).symm
      exact absurd hdid (hd d ((View.dead_mem_key h d).2 (by rw [hdid]; exact hg)))
  simp [step, dlqRemove, hg]

/-- C29: delete removes exactly that dead letter. -/
theorem C29_delete {cfg : Config} {used : List Id} {q : QInner} (hr : Reachable cfg used q)
    {d : DlqMsg} (hd : d ∈ deadLetters q) :
    let r := step q (.deleteDlq d.id)
    r.2.1 = .bool true ∧ deadLetters r.1 = (deadLetters q).filter (fun d' => d'.id ≠ d.id) ∧
    waiting r.1 = waiting q ∧ inFlight r.1 = inFlight q := by
  obtain ⟨hc, a, h⟩ := hr.inv
  have hg := (View.dead_mem_key h d).1 hd
  intro r
  have hr' : r = step q (.deleteDlq d.id) := rfl
  simp only [Verif.Queue.step, dlqRemove, hg] at hr'
  rw [hr']
  exact ⟨rfl, deadLetters_mdel h d.id q.state, rfl, rfl⟩

/-- C29: purge empties the dead-letter list and reports how many were there. -/
theorem C29_purge (q : QInner) :
    let r := step q .purgeDlq
    r.2.1 = .count (deadLetters q).length ∧ deadLetters r.1 = [] ∧ waiting r.1 = waiting q ∧ inFlight r.1 = inFlight q := by
  refine ⟨?_, rfl, rfl, rfl⟩
  rw [deadLetters_eq]; simp [step]

def exDead : QInner := (run exQ [.pop 20, .nack 2 [120] 21, .pop 22, .tick 400 400, .consume 2 401, .tick 900 900]).1
theorem exDead_reachable : Reachable exCfg [1, 2, 3] exDead :=
  ⟨exEvents ++ [.op (.pop 20), .op (.nack 2 [120] 21), .op (.pop 22), .op (.tick 400 400), .op (.consume 2 401), .op (.tick 900 900)],
    by decide, rfl, by decide⟩
example : (deadLetters exDead).map (·.id) = [3, 1, 2] ∧ (waiting (step exDead (.moveToQueue 1)).1).map (fun m => (m.id, m.attempts)) = [(1, 0)] := by decide

/-! ## C30 -/

/-- C30: the counters are the numbers of waiting messages, messages in flight and dead letters. -/
theorem C30_counters {cfg : Config} {used : List Id} {q : QInner} (hr : Reachable cfg used q) :
    step q .counters = (q, .stats (waiting q).length (inFlight q).length (deadLetters q).length, []) := by
  obtain ⟨hc, a, h⟩ := hr.inv
  have v := h.view
  have h1 : (waiting q).length = a.ready.length := by rw [← v.wait.length_eq, List.length_map]
  have h2 : (inFlight q).length = a.flight.length := by rw [← v.flight, List.length_map]
  simp only [step, SR.counters h.st, h1, h2, deadLetters_eq, List.length_reverse, List.length_map]

/-- C30: a page of the message listing is that page of the messages in the requested state that match
the search; the total counts all of them.  (That `waiting` are exactly the messages a consume can hand
out, and `inFlight` those handed out and not settled, is `C24`, `C26`, `C27`, `C28`.) -/
theorem C30_listing (q : QInner) (offset limit : Nat) (search : Msg → Bool) :
    q.state.getMessages false offset limit search =
      (((waiting q).filter search).length, (((waiting q).filter search).drop offset).take limit) ∧
    q.state.getMessages true offset limit search =
      (((inFlight q).filter search).length, (((inFlight q).filter search).drop offset).take limit) := by
  rw [waiting_eq, inFlight_eq]
  simp [QState.getMessages, QState.listing, flat]

/-- C30: no message is listed in a state it is not in, none is listed twice, and every message in the
queue is listed in exactly one state. -/
theorem C30_states {cfg : Config} {used : List Id} {q : QInner} (hr : Reachable cfg used q) :
    (∀ m ∈ waiting q, m.state = .ready) ∧ (∀ m ∈ inFlight q, m.state = .inFlight m.due) ∧
    (((waiting q).map (·.id) ++ (inFlight q).map (·.id)).Nodup) := by
  obtain ⟨hc, a, h⟩ := hr.inv
  have v := h.view
  have hp : ((waiting q).map (·.id) ++ (inFlight q).map (·.id)).Perm (a.ready.map (·.id) ++ a.flight.map (·.2.id)) := by
    refine List.Perm.append ?_ ?_
    · have := v.wait.map Item.id
      rw [List.map_map] at this; exact this
    · rw [← v.flight, List.map_map]; exact List.Perm.refl _
  have hnd : ((waiting q).map (·.id) ++ (inFlight q).map (·.id)).Nodup := by
    rw [hp.nodup_iff]
    have := v.distinct
    unfold Spec.Queue.Q.Distinct at this
    rw [Spec.Queue.ids_eq, ← List.append_assoc] at this
    exact (List.nodup_append.1 this).1
  refine ⟨v.waitReady, v.flightState, hnd⟩

example : (step exDead .counters).2.1 = .stats 0 0 3 ∧ (step exQ .counters).2.1 = .stats 2 1 0 := by decide

end Verif.Queue
