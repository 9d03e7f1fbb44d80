import Verif.Proofs.QueueRpc
import Verif.Props.Queue

/-!
# Lemmas about the queues behind the network: the acts on one queue
-/

namespace Verif.Rpc

open Verif Verif.Wire Verif.Sdk
open Verif.Queue (Config Op MEvent Mgr life lifeStep opsOn Fresh pushIds QInner)

variable {E I : Type}

/-- A list of acts in which every queue command has the answer that the commands before it imply. -/
structure Told (cfg : Config) (batch : Nat) (supply : Nat → Queue.Id) (bg : I → Option MEvent) (A : List (Act I)) : Prop where
  exec : ∀ u l cmd now r w, A = u ++ .did l cmd now r :: w → isQueue cmd = true →
    (r = (queueExec cfg batch supply now cmd ⟨(Mgr.new.run cfg (events batch supply bg 0 u)).1, u.countP isPush⟩).2) ∧
    cmd.Fits ∧ ∀ d, r = some (.data d) → d.length < 2 ^ 32
  tasks : ∀ x ev, bg x = some ev → (∃ n k, ev = .commit n k) ∨ ∃ n t t', ev = .op n (.tick t t')
  ids : Uuids supply (A.countP isPush)

theorem told (pr : Printer) {srv : Server E I} {cfg : Config} {batch : Nat} {supply : Nat → Queue.Id} {part : E → Queues}
    {bg : I → Option MEvent} (hp : QueuePart srv cfg batch supply part bg) {e0 : E} (h0 : part e0 = {}) (es : List (Ev I))
    (ho : Ordinary pr srv ((World.init e0).run pr srv es).2) (hu : Uuids supply ((acts ((World.init e0).run pr srv es).2).countP isPush)) :
    Told cfg batch supply bg (acts ((World.init e0).run pr srv es).2) :=
  ⟨fun _ _ _ _ _ _ hs hq => act_exec pr hp.host h0 es ho hs hq, hp.tasks, hu⟩

variable {cfg : Config} {batch : Nat} {supply : Nat → Queue.Id} {bg : I → Option MEvent} {A : List (Act I)}

theorem Told.weak (h : Told cfg batch supply bg A) : QTasks bg := fun x ev hx => (h.tasks x ev hx).elim .inl (fun h => .inr (.inl h))

/-! ### Which act an event comes from -/

theorem event_of_op {made : Nat} {a : Act I} {q : Str} {o : Op} (ht : QTasks bg)
    (h : eventOf batch supply bg made a = some (.op q o)) :
    (∃ l opts pl now r, a = .did l (.qPush q opts pl) now r ∧ o = .push (supply made) pl (opts.priority.getD 0) now) ∨
    (∃ l opts now r, a = .did l (.qConsume q opts) now r ∧ o = .consume (opts.batchSize.getD batch) now) ∨
    (∃ l i now r, a = .did l (.qAck i q) now r ∧ o = .ack (beVal i)) ∨
    (∃ l i reason now r, a = .did l (.qNack i q reason) now r ∧ o = .nack (beVal i) reason now) ∨
    (∃ x t t', a = .ticked x ∧ bg x = some (.op q (.tick t t')) ∧ o = .tick t t') ∨
    (o.pushId = [] ∧ (∀ q' : QInner, (Queue.step q' o).2.1.delivered = []) ∧ (∀ i, o ≠ .ack i) ∧ (∀ i rs t, o ≠ .nack i rs t) ∧ ∀ t t', o ≠ .tick t t') := by
  have dlq : ∀ (q' : QInner) (id : Queue.Id), (Queue.step q' (.moveToQueue id)).2.1.delivered = [] := by
    intro q' id
    simp only [Queue.step]
    split <;> rfl
  have del : ∀ (q' : QInner) (id : Queue.Id), (Queue.step q' (.deleteDlq id)).2.1.delivered = [] := by
    intro q' id
    simp only [Queue.step]
    split <;> rfl
  cases a with
  | ticked x =>
    right; right; right; right; left
    simp only [eventOf] at h
    rcases ht x _ h with ⟨n, k, he⟩ | ⟨n, t, t', he⟩ | ⟨now, he⟩
    · cases he
    · injection he with e1 e2; subst e1 e2; exact ⟨x, t, t', rfl, h, rfl⟩
    · cases he
  | did l cmd now r =>
    simp only [eventOf] at h
    cases cmd <;> simp only [queueCall, Option.some.injEq, reduceCtorEq, MEvent.op.injEq] at h
    case qPush q' opts pl => obtain ⟨rfl, rfl⟩ := h; exact .inl ⟨l, opts, pl, now, r, rfl, rfl⟩
    case qConsume q' opts => obtain ⟨rfl, rfl⟩ := h; exact .inr (.inl ⟨l, opts, now, r, rfl, rfl⟩)
    case qAck i q' => obtain ⟨rfl, rfl⟩ := h; exact .inr (.inr (.inl ⟨l, i, now, r, rfl, rfl⟩))
    case qNack i q' reason => obtain ⟨rfl, rfl⟩ := h; exact .inr (.inr (.inr (.inl ⟨l, i, reason, now, r, rfl, rfl⟩)))
    case qPeek q' lim off => obtain ⟨rfl, rfl⟩ := h; exact .inr (.inr (.inr (.inr (.inr ⟨rfl, fun _ => rfl, by simp, by simp, by simp⟩))))
    case qMove q' i => obtain ⟨rfl, rfl⟩ := h; exact .inr (.inr (.inr (.inr (.inr ⟨rfl, fun _ => dlq _ _, by simp, by simp, by simp⟩))))
    case qDelDlq q' i => obtain ⟨rfl, rfl⟩ := h; exact .inr (.inr (.inr (.inr (.inr ⟨rfl, fun _ => del _ _, by simp, by simp, by simp⟩))))
    case qPurge q' => obtain ⟨rfl, rfl⟩ := h; exact .inr (.inr (.inr (.inr (.inr ⟨rfl, fun _ => rfl, by simp, by simp, by simp⟩))))

theorem no_restart (ht : ∀ x ev, bg x = some ev → (∃ n k, ev = .commit n k) ∨ ∃ n t t', ev = .op n (.tick t t')) (made : Nat) (A : List (Act I))
    (now : Nat) : MEvent.restart now ∉ events batch supply bg made A := by
  intro hm
  obtain ⟨h1, h2, h⟩ := List.append_of_mem hm
  obtain ⟨u, a, w, _, _, h3, _⟩ := events_split batch supply bg h
  cases a with
  | ticked x =>
    rcases ht x _ h3 with ⟨n, k, he⟩ | ⟨n, t, t', he⟩ <;> cases he
  | did l cmd now' r => cases cmd <;> simp [eventOf, queueCall] at h3

theorem event_delete (ht : QTasks bg) {made : Nat} {A : List (Act I)}
    {q : Str} (hd : ∀ a ∈ A, ¬ deletes q a) : MEvent.delete q ∉ events batch supply bg made A := by
  intro hm
  obtain ⟨h1, h2, h⟩ := List.append_of_mem hm
  obtain ⟨u, a, w, rfl, _, h3, _⟩ := events_split batch supply bg h
  have hda := hd a (by simp)
  cases a with
  | ticked x =>
    rcases ht x _ h3 with ⟨n, k, he⟩ | ⟨n, t, t', he⟩ | ⟨now, he⟩ <;> cases he
  | did l cmd now' r =>
    cases cmd <;> simp only [eventOf, queueCall, Option.some.injEq, reduceCtorEq, MEvent.delete.injEq] at h3
    subst h3
    exact hda ⟨l, now', r, rfl⟩

theorem event_create (ht : QTasks bg) {made : Nat} {a : Act I}
    {q : Str} {vt mr : Option Nat} {t : Nat} (h3 : eventOf batch supply bg made a = some (.create q vt mr t)) :
    ∃ l opts r, a = .did l (.qCreate q opts) t r ∧ vt = opts.visibilityTimeoutMs ∧ mr = opts.maxRetries := by
  cases a with
  | ticked x =>
    rcases ht x _ h3 with ⟨n, k, he⟩ | ⟨n, t, t', he⟩ | ⟨now, he⟩ <;> cases he
  | did l cmd now' r =>
    cases cmd <;> simp only [eventOf, queueCall, Option.some.injEq, reduceCtorEq, MEvent.create.injEq] at h3
    obtain ⟨rfl, rfl, rfl, rfl⟩ := h3
    exact ⟨l, _, r, rfl, rfl, rfl⟩

/-! ### Ids -/

theorem event_ids (ht : QTasks bg)
    {N : Nat} (hi : Uuids supply N) (q : Str) : ∀ (A : List (Act I)) (made : Nat), made + A.countP isPush ≤ N →
    (pushIds (opsOn q (events batch supply bg made A))).Nodup ∧
    ∀ id ∈ pushIds (opsOn q (events batch supply bg made A)), ∃ j, made ≤ j ∧ j < made + A.countP isPush ∧ id = supply j := by
  intro A
  induction A with
  | nil => intro made _; simp [events, opsOn, pushIds]
  | cons a t ih =>
    intro made hN
    rw [List.countP_cons] at hN
    obtain ⟨i1, i2⟩ := ih (made + if isPush a then 1 else 0) (by omega)
    simp only [events]
    rw [Queue.opsOn_append, Queue.pushIds_append]
    have key : pushIds (opsOn q (eventOf batch supply bg made a).toList) = [] ∨
        (pushIds (opsOn q (eventOf batch supply bg made a).toList) = [supply made] ∧ isPush a = true) := by
      cases he : eventOf batch supply bg made a with
      | none => exact .inl rfl
      | some e =>
        cases e with
        | op n o =>
          by_cases hn : n = q ∧ o.ok
          · have hx : opsOn q (some (MEvent.op n o)).toList = [o] := by simp [opsOn, hn.1, hn.2]
            rw [hx, Queue.pushIds_cons]
            rcases event_of_op ht he with ⟨l, opts, pl, now, r, rfl, rfl⟩ | ⟨l, opts, now, r, rfl, rfl⟩ | ⟨l, i, now, r, rfl, rfl⟩ |
              ⟨l, i, reason, now, r, rfl, rfl⟩ | ⟨x, t, t', rfl, _, rfl⟩ | h
            · exact .inr ⟨rfl, rfl⟩
            · exact .inl rfl
            · exact .inl rfl
            · exact .inl rfl
            · exact .inl rfl
            · rw [h.1]; exact .inl rfl
          · left
            have hx : opsOn q (some (MEvent.op n o)).toList = [] := by simp [opsOn, hn]
            rw [hx]; rfl
        | _ => exact .inl rfl
    rw [List.countP_cons]
    rcases key with hk | ⟨hk, hp⟩
    · rw [hk, List.nil_append]
      refine ⟨i1, ?_⟩
      intro id hid
      obtain ⟨j, h1, h2, h3⟩ := i2 id hid
      exact ⟨j, by omega, by omega, h3⟩
    · rw [hk]
      rw [if_pos hp] at i1 i2 ⊢
      refine ⟨?_, ?_⟩
      · rw [List.singleton_append, List.nodup_cons]
        refine ⟨?_, i1⟩
        intro hm
        obtain ⟨j, h1, h2, h3⟩ := i2 _ hm
        rw [if_pos hp] at hN
        have := hi.inj _ _ (by omega) (by omega) h3
        omega
      · intro id hid
        rcases List.mem_append.1 hid with hid | hid
        · exact ⟨made, by omega, by omega, by simpa using hid⟩
        · obtain ⟨j, h1, h2, h3⟩ := i2 id hid
          exact ⟨j, by omega, by omega, h3⟩

theorem fresh_ops (ht : QTasks bg)
    {N : Nat} (hi : Uuids supply N) (q : Str) (made : Nat) (A : List (Act I)) (hN : made + A.countP isPush ≤ N) : Fresh [] (opsOn q (events batch supply bg made A)) :=
  ⟨fun _ ho => (Queue.mem_opsOn.1 ho).2, (event_ids ht hi q A made hN).1, fun _ _ => by simp⟩

theorem fresh_append {a b : List Op} (h : Fresh [] (a ++ b)) : Fresh [] a ∧ Fresh [] b ∧ Fresh (pushIds a) b := by
  obtain ⟨h1, h2, _⟩ := h
  rw [Queue.pushIds_append, List.nodup_append] at h2
  refine ⟨⟨fun o ho => h1 o (List.mem_append_left _ ho), h2.1, by simp⟩, ⟨fun o ho => h1 o (List.mem_append_right _ ho), h2.2.1, by simp⟩,
    fun o ho => h1 o (List.mem_append_right _ ho), h2.2.1, fun i hi hj => h2.2.2 i hj i hi rfl⟩

/-! ### The life of a queue -/

/-- A queue that exists was created, and has had the requests since. -/
theorem life_acts (ht : QTasks bg) {q : Str} {u : List (Act I)}
    {x : Config × List Op} (h : life cfg q (events batch supply bg 0 u) = some x) :
    ∃ u₁ l opts now r u₂, u = u₁ ++ .did l (.qCreate q opts) now r :: u₂ ∧
      x.1 = Config.fromOptions opts.visibilityTimeoutMs opts.maxRetries cfg ∧ x.2 = opsOn q (events batch supply bg (u₁.countP isPush) u₂) ∧
      MEvent.delete q ∉ events batch supply bg (u₁.countP isPush) u₂ := by
  rcases Queue.life_from _ h with ⟨y, hy, _⟩ | ⟨h1, vt, mr, t, h2, he, e1, e2, e3⟩
  · cases hy
  · obtain ⟨u1, a, w, k1, k2, k3, k4⟩ := events_split batch supply bg he
    obtain ⟨l, opts, r, rfl, rfl, rfl⟩ := event_create ht k3
    simp only [isPush, Nat.zero_add, Bool.false_eq_true, if_false, Nat.add_zero] at k4
    refine ⟨u1, l, opts, t, r, w, k1, e1, by rw [e2, k4], by rw [k4]; exact e3⟩

theorem life_fresh (ht : QTasks bg)
    {N : Nat} (hi : Uuids supply N) {q : Str} {u : List (Act I)} (hN : u.countP isPush ≤ N) {x : Config × List Op}
    (h : life cfg q (events batch supply bg 0 u) = some x) : Fresh [] x.2 := by
  obtain ⟨u1, l, opts, now, r, u2, h1, _, h3, _⟩ := life_acts ht h
  rw [h3]
  refine fresh_ops ht hi q _ _ ?_
  rw [h1, List.countP_append, List.countP_cons] at hN
  omega

theorem Told.le (h : Told cfg batch supply bg A) {u w : List (Act I)} (hs : A = u ++ w) : u.countP isPush ≤ A.countP isPush := by
  have _ := h.ids
  rw [hs, List.countP_append]; omega

theorem Told.fresh (h : Told cfg batch supply bg A) {u w : List (Act I)} (hs : A = u ++ w) {q : Str} {x : Config × List Op}
    (hx : life cfg q (events batch supply bg 0 u) = some x) : Fresh [] x.2 := life_fresh h.weak h.ids (h.le hs) hx

/-- The id of a push. -/
theorem Told.small (h : Told cfg batch supply bg A) {u v w : List (Act I)} {l t : Nat} {q : Str} {opts : PushOpts} {pl : Bytes} {r : Option Response}
    (hs : A = u ++ w) {u₁ : List (Act I)} (hu : u = u₁ ++ .did l (.qPush q opts pl) t r :: v) : supply (u₁.countP isPush) < 2 ^ 128 := by
  refine h.ids.small _ ?_
  rw [hs, hu, List.countP_append, List.countP_append, List.countP_cons]
  simp only [isPush, if_true]; omega

theorem life_stays {q : Str} : ∀ (h : List MEvent) {x : Config × List Op}, MEvent.delete q ∉ h →
    h.foldl (lifeStep cfg q) (some x) = some (x.1, x.2 ++ opsOn q h) := by
  intro h
  induction h with
  | nil => intro x _; simp [opsOn]
  | cons e h ih =>
    intro x hd
    have hd' : MEvent.delete q ∉ h := fun hm => hd (List.mem_cons_of_mem _ hm)
    simp only [List.foldl_cons]
    cases e with
    | create m vt mr t =>
      have : lifeStep cfg q (some x) (.create m vt mr t) = some x := by simp only [lifeStep]; split <;> rfl
      rw [this, ih hd']; rfl
    | delete m =>
      have hm : m ≠ q := fun e => hd (e ▸ List.mem_cons_self ..)
      have : lifeStep cfg q (some x) (.delete m) = some x := by simp only [lifeStep]; rw [if_neg hm]
      rw [this, ih hd']; rfl
    | op m o =>
      by_cases hm : m = q ∧ o.ok
      · have : lifeStep cfg q (some x) (.op m o) = some (x.1, x.2 ++ [o]) := by simp only [lifeStep]; rw [if_pos hm]; rfl
        rw [this, ih hd']; simp [opsOn, hm.1, hm.2]
      · have : lifeStep cfg q (some x) (.op m o) = some x := by simp only [lifeStep]; rw [if_neg hm]
        rw [this, ih hd']; simp [opsOn, hm]
    | exist m => rw [show lifeStep cfg q (some x) (.exist m) = some x from rfl, ih hd']; rfl
    | commit m k => rw [show lifeStep cfg q (some x) (.commit m k) = some x from rfl, ih hd']; rfl
    | restart now => rw [show lifeStep cfg q (some x) (.restart now) = some x from rfl, ih hd']; rfl

theorem life_append (q : Str) (a b : List MEvent) : life cfg q (a ++ b) = b.foldl (lifeStep cfg q) (life cfg q a) := List.foldl_append

/-- Its messages were pushed by acts. -/
theorem life_pushed (ht : QTasks bg) {q : Str} {u : List (Act I)}
    {x : Config × List Op} (h : life cfg q (events batch supply bg 0 u) = some x) {id : Queue.Id} {pl : Bytes} {p t : Nat} (hm : Op.push id pl p t ∈ x.2) :
    ∃ u₁ l opts r u₂, u = u₁ ++ .did l (.qPush q opts pl) t r :: u₂ ∧ id = supply (u₁.countP isPush) ∧ p = opts.priority.getD 0 ∧
      MEvent.delete q ∉ events batch supply bg (u₁.countP isPush + 1) u₂ ∧ ∃ z, life cfg q (events batch supply bg 0 u₁) = some z := by
  obtain ⟨u1, l, opts, now, r, u2, h1, _, h3, h4⟩ := life_acts ht h
  rw [h3] at hm
  obtain ⟨k1, k2⟩ := Queue.mem_opsOn.1 hm
  obtain ⟨y1, y2, hy⟩ := List.append_of_mem k1
  obtain ⟨v1, a, v2, e1, e2, e3, e4⟩ := events_split batch supply bg hy
  have hn : (u1 ++ .did l (.qCreate q opts) now r :: v1).countP isPush = u1.countP isPush + v1.countP isPush := by
    rw [List.countP_append, List.countP_cons]; simp [isPush]
  rcases event_of_op ht e3 with ⟨l', opts', pl', now', r', rfl, ho⟩ | ⟨l', opts', now', r', rfl, ho⟩ | ⟨l', i, now', r', rfl, ho⟩ |
      ⟨l', i, reason, now', r', rfl, ho⟩ | ⟨x', t1, t2, rfl, _, ho⟩ | ho
  · injection ho with o1 o2 o3 o4
    subst o2 o4
    refine ⟨u1 ++ .did l (.qCreate q opts) now r :: v1, l', opts', r', v2, by rw [h1, e1]; simp, by rw [hn]; exact o1, o3, ?_, ?_⟩
    · rw [hn]
      intro hd
      apply h4
      rw [hy, ← e4]
      simp only [isPush, if_true]
      simp [hd]
    · have hv : MEvent.delete q ∉ events batch supply bg (u1.countP isPush) v1 := by
        intro hd
        apply h4
        rw [hy, ← e2]
        exact List.mem_append_left _ hd
      have hE : events batch supply bg 0 (u1 ++ .did l (.qCreate q opts) now r :: v1) =
          events batch supply bg 0 u1 ++ .create q opts.visibilityTimeoutMs opts.maxRetries now :: events batch supply bg (u1.countP isPush) v1 := by
        rw [events_append, Nat.zero_add]; rfl
      rw [hE, life_append, List.foldl_cons]
      cases hl : life cfg q (events batch supply bg 0 u1) with
      | none =>
        rw [show lifeStep cfg q none (.create q opts.visibilityTimeoutMs opts.maxRetries now) =
          some (Config.fromOptions opts.visibilityTimeoutMs opts.maxRetries cfg, []) by simp [lifeStep], life_stays _ hv]
        exact ⟨_, rfl⟩
      | some z =>
        rw [show lifeStep cfg q (some z) (.create q opts.visibilityTimeoutMs opts.maxRetries now) = some z by simp [lifeStep], life_stays _ hv]
        exact ⟨_, rfl⟩
  · cases ho
  · cases ho
  · cases ho
  · cases ho
  · simp [Op.pushId] at ho

/-! ### Answers -/

/-- The answer of an act on a queue. -/
theorem Told.answer (h : Told cfg batch supply bg A) {u w : List (Act I)} {l now : Nat} {cmd : Cmd} {r : Option Response}
    (hs : A = u ++ .did l cmd now r :: w) {q : Str} {o : Op} (hc : queueCall batch (supply (u.countP isPush)) now cmd = some (.op q o)) :
    r = queueAnswer cmd (match life cfg q (events batch supply bg 0 u) with
      | none => Queue.missing o
      | some x => .out (Queue.step (Queue.run (QInner.empty x.1) x.2).1 o).2.1) := by
  have hq : isQueue cmd = true := by rw [← call_isSome (batch := batch) (id := supply (u.countP isPush)) (now := now), hc]; rfl
  have h1 := (h.exec u l cmd now r w hs hq).1
  rw [h1]
  simp only [queueExec, hc]
  rw [Queue.lives_answer (Queue.lives_run cfg q _ (fun now => no_restart h.tasks 0 u now))]
  cases life cfg q (events batch supply bg 0 u) <;> rfl

/-- The answer of a consume: nothing, or what the queue gives. -/
theorem Told.consume (h : Told cfg batch supply bg A) {u w : List (Act I)} {l now : Nat} {q : Str} {opts : ConsumeOpts} {r : Option Response}
    (hs : A = u ++ .did l (.qConsume q opts) now r :: w) :
    (handed r = [] ∧ (life cfg q (events batch supply bg 0 u) = none ∨ ¬ (Op.consume (opts.batchSize.getD batch) now).ok ∧ r = none)) ∨
    ∃ x msgs, life cfg q (events batch supply bg 0 u) = some x ∧ (Op.consume (opts.batchSize.getD batch) now).ok ∧
      (Queue.step (Queue.run (QInner.empty x.1) x.2).1 (.consume (opts.batchSize.getD batch) now)).2.1 = .msgs msgs ∧
      handed r = msgs.map (fun m => (uuidBytes m.id, m.payload)) ∧ r = some (.data (wireConsume (msgs.map (fun m => (uuidBytes m.id, m.payload))))) := by
  have h1 := h.answer hs (q := q) (o := .consume (opts.batchSize.getD batch) now) rfl
  have h2 := (h.exec u l _ now r w hs rfl).2.2
  cases hl : life cfg q (events batch supply bg 0 u) with
  | none =>
    rw [hl] at h1
    left
    rw [h1]; exact ⟨rfl, .inl rfl⟩
  | some x =>
    rw [hl] at h1
    by_cases hok : (Op.consume (opts.batchSize.getD batch) now).ok
    · right
      have hk : ¬ (opts.batchSize.getD batch * Queue.msgSize > Queue.isizeMax) := Nat.not_lt.2 hok
      simp only [Queue.step, hk, if_false, queueAnswer] at h1
      refine ⟨x, _, rfl, hok, by simp only [Queue.step, hk, if_false], ?_, h1⟩
      have h3 := h2 _ h1
      rw [h1]
      exact handed_wire (by intro m hm; obtain ⟨y, _, rfl⟩ := List.mem_map.1 hm; exact uuid_length _) h3
    · left
      have hk : opts.batchSize.getD batch * Queue.msgSize > Queue.isizeMax := Nat.lt_of_not_le hok
      simp only [Queue.step, hk, if_true, queueAnswer] at h1
      rw [h1]; exact ⟨rfl, .inr ⟨hok, rfl⟩⟩

/-- Everything handed out was pushed. -/
theorem consume_pushed {c : Config} {ops : List Op} (hf : Fresh [] ops) {n now : Nat} (hok : (Op.consume n now).ok) {msgs : List Queue.Msg}
    (hm : (Queue.step (Queue.run (QInner.empty c) ops).1 (.consume n now)).2.1 = .msgs msgs) :
    (msgs.map (·.id)).Nodup ∧ ∀ m ∈ msgs, Op.push m.id m.payload m.priority m.createdAt ∈ ops := by
  have hr := Queue.reachable_run c hf
  obtain ⟨l, h1, _, h3, _, h5, _⟩ := Queue.C24_consume_exact_partial hr hok
  rw [hm] at h1
  injection h1 with h1
  subst h1
  refine ⟨h3, ?_⟩
  intro m hmm
  have h6 := (h5 m hmm).1
  have hf2 : Fresh [] (ops ++ [.consume n now]) := by
    refine ⟨?_, ?_, by simp⟩
    · intro o ho
      rcases List.mem_append.1 ho with ho | ho
      · exact hf.1 o ho
      · rw [List.mem_singleton.1 ho]; exact hok
    · rw [Queue.pushIds_append]; simpa [pushIds] using hf.2.1
  have h7 := (Queue.C22_conservation (Queue.reachable_run c (ops := []) ⟨by simp, by simp [pushIds], by simp⟩) (q := (Queue.run (QInner.empty c) []).1)
    (ops := ops ++ [.consume n now]) (by simpa [pushIds] using hf2)).1
  have h8 : m.core ∈ Queue.places (Queue.run (QInner.empty c) (ops ++ [.consume n now])).1 := by
    rw [Queue.run_append_fst]
    simp only [Queue.run, Queue.places]
    exact List.mem_append_left _ (List.mem_append_right _ (List.mem_map.2 ⟨m, h6, rfl⟩))
  have h9 := h7.mem_iff.1 (List.mem_append_left _ h8)
  have h10 : Queue.places (Queue.run (QInner.empty c) []).1 = [] := rfl
  rw [h10, List.nil_append] at h9
  have h11 := Queue.mem_pushed.1 h9
  rcases List.mem_append.1 h11 with h11 | h11
  · exact h11
  · simp at h11

/-- Two moments in the life of a queue with a message in common belong to the same life. -/
theorem same_life (ht : QTasks bg) (hids : Uuids supply (A.countP isPush)) {q : Str} {u v w : List (Act I)} {a : Act I} {o : Op} {x y : Config × List Op}
    (hs : A = u ++ a :: v ++ w)
    (ha : eventOf batch supply bg (u.countP isPush) a = some (.op q o)) (hok : o.ok)
    (hx : life cfg q (events batch supply bg 0 u) = some x) (hy : life cfg q (events batch supply bg 0 (u ++ a :: v)) = some y)
    {id : Queue.Id} (h1 : id ∈ pushIds (x.2 ++ [o])) (h2 : id ∈ pushIds y.2) :
    y.1 = x.1 ∧ y.2 = x.2 ++ o :: opsOn q (events batch supply bg (u.countP isPush + if isPush a then 1 else 0) v) ∧
    MEvent.delete q ∉ events batch supply bg (u.countP isPush + if isPush a then 1 else 0) v := by
  generalize hk : u.countP isPush + (if isPush a then 1 else 0) = k
  have he : events batch supply bg 0 (u ++ a :: v) = events batch supply bg 0 u ++ .op q o :: events batch supply bg k v := by
    rw [events_append, Nat.zero_add]
    simp only [events, ha, hk]; rfl
  have hy' := hy
  rw [he, life_append, hx] at hy'
  rcases Queue.life_from _ hy' with ⟨z, hz, e1, e2, e3⟩ | ⟨g1, vt, mr, t, g2, eg, e1, e2, e3⟩
  · injection hz with hz
    subst hz
    refine ⟨e1, ?_, fun hm => e3 (List.mem_cons_of_mem _ hm)⟩
    rw [e2]; simp [opsOn, hok]
  · exfalso
    have hn := (event_ids ht hids q (u ++ a :: v) 0 (by rw [Nat.zero_add, hs, List.countP_append (l₁ := u ++ a :: v)]; omega) (batch := batch)).1
    rw [he] at hn
    -- the first occurrence is before the creation, the second after it
    have hg : ∃ g, events batch supply bg k v = g ++ .create q vt mr t :: g2 := by
      cases g1 with
      | nil => simp at eg
      | cons z g1 =>
        simp only [List.cons_append, List.cons.injEq] at eg
        exact ⟨g1, eg.2⟩
    obtain ⟨g, hg⟩ := hg
    rw [hg, Queue.opsOn_append, show opsOn q (.op q o :: (g ++ .create q vt mr t :: g2)) = [o] ++ (opsOn q g ++ opsOn q g2) by
      have : opsOn q (.op q o :: (g ++ .create q vt mr t :: g2)) = opsOn q [.op q o] ++ opsOn q (g ++ .create q vt mr t :: g2) := by
        rw [← Queue.opsOn_append]; rfl
      rw [this, Queue.opsOn_append]
      congr 1
      · simp [opsOn, hok]] at hn
    rw [← List.append_assoc, ← List.append_assoc, Queue.pushIds_append, List.nodup_append] at hn
    rw [e2] at h2
    refine hn.2.2 id ?_ id h2 rfl
    rw [Queue.pushIds_append]
    refine List.mem_append_left _ ?_
    obtain ⟨u1, l', opts', now', r', u2, k1, k2, k3, k4⟩ := life_acts ht hx
    have : opsOn q (events batch supply bg 0 u) = opsOn q (events batch supply bg 0 (u1 ++ [.did l' (.qCreate q opts') now' r'])) ++ x.2 := by
      rw [k3, ← Queue.opsOn_append]
      congr 1
      rw [k1, List.append_cons, events_append batch supply bg 0 (u1 ++ _)]
      congr 2
      simp [isPush]
    rw [this, Queue.pushIds_append, Queue.pushIds_append, List.append_assoc, ← Queue.pushIds_append]
    exact List.mem_append_right _ h1

/-! ### What the acts on a queue imply -/

theorem delete_event {made : Nat} {v : List (Act I)} {q : Str} (h : MEvent.delete q ∉ events batch supply bg made v) : ∀ a ∈ v, ¬ deletes q a := by
  rintro a ha ⟨l, now, r, rfl⟩
  obtain ⟨x, y, rfl⟩ := List.append_of_mem ha
  apply h
  rw [events_append]
  refine List.mem_append_right _ ?_
  simp [events, eventOf, queueCall]

theorem mem_ops_act {made : Nat} {v : List (Act I)} {q : Str} {o : Op} (h : o ∈ opsOn q (events batch supply bg made v)) :
    ∃ v₁ a v₂, v = v₁ ++ a :: v₂ ∧ eventOf batch supply bg (made + v₁.countP isPush) a = some (.op q o) := by
  obtain ⟨y1, y2, hy⟩ := List.append_of_mem (Queue.mem_opsOn.1 h).1
  obtain ⟨v1, a, v2, e1, _, e3, _⟩ := events_split batch supply bg hy
  exact ⟨v1, a, v2, e1, e3⟩

theorem handed_ids {r : Option Response} {msgs : List Queue.Msg} (h : handed r = msgs.map (fun m => (uuidBytes m.id, m.payload))) :
    handedIds r = msgs.map (fun m => uuidBytes m.id) := by
  unfold handedIds; rw [h, List.map_map]; rfl

theorem out_ids {l : List Queue.Msg} {o : Queue.Out} (h : o = .msgs l) : o.delivered = l.map (·.id) := by subst h; rfl

/-- Everything that a consume hands out was pushed to the queue before, and the queue was not deleted in between. -/
theorem Told.faithful (h : Told cfg batch supply bg A) {u w : List (Act I)} {l now : Nat} {q : Str} {opts : ConsumeOpts} {r : Option Response}
    (hs : A = u ++ .did l (.qConsume q opts) now r :: w) :
    (handedIds r).Nodup ∧ ∀ i pl, (i, pl) ∈ handed r → ∃ u₁ l' opts' t u₂, u = u₁ ++ .did l' (.qPush q opts' pl) t (some .ok) :: u₂ ∧
      i = pushedId supply u₁ ∧ ∀ a ∈ u₂, ¬ deletes q a := by
  rcases h.consume hs with ⟨h1, _⟩ | ⟨x, msgs, h1, h2, h3, h4, h5⟩
  · unfold handedIds; rw [h1]; exact ⟨.nil, by simp⟩
  · have hf := h.fresh hs h1
    obtain ⟨k1, k2⟩ := consume_pushed hf h2 h3
    have src : ∀ m ∈ msgs, ∃ u₁ l' opts' t u₂, u = u₁ ++ .did l' (.qPush q opts' m.payload) t (some .ok) :: u₂ ∧
        m.id = supply (u₁.countP isPush) ∧ ∀ a ∈ u₂, ¬ deletes q a := by
      intro m hm
      obtain ⟨u1, l', opts', r', u2, e1, e2, _, e4, z, e5⟩ := life_pushed h.weak h1 (k2 m hm)
      have hr := h.answer (u := u1) (l := l') (now := m.createdAt) (cmd := .qPush q opts' m.payload) (r := r')
        (w := u2 ++ .did l (.qConsume q opts) now r :: w) (by rw [hs, e1]; simp)
        (q := q) (o := .push (supply (u1.countP isPush)) m.payload (opts'.priority.getD 0) m.createdAt) rfl
      rw [e5] at hr
      have hr' : r' = some .ok := hr
      subst hr'
      exact ⟨u1, l', opts', _, u2, e1, e2, delete_event e4⟩
    refine ⟨?_, ?_⟩
    · rw [handed_ids h4, show msgs.map (fun m => uuidBytes m.id) = (msgs.map (·.id)).map uuidBytes by rw [List.map_map]; rfl]
      refine List.Pairwise.map _ (R := fun a b => a ≠ b ∧ a < 2 ^ 128 ∧ b < 2 ^ 128) ?_ ?_
      · intro a b hab he; exact hab.1 (uuid_inj hab.2.1 hab.2.2 he)
      · have hb : ∀ i ∈ msgs.map (·.id), i < 2 ^ 128 := by
          intro i hi
          obtain ⟨m, hm, rfl⟩ := List.mem_map.1 hi
          obtain ⟨u1, _, _, _, _, e1, e2, _⟩ := src m hm
          show m.id < 2 ^ 128
          rw [e2]; exact h.small hs e1
        exact k1.imp_of_mem (fun ha hb' hne => ⟨hne, hb _ ha, hb _ hb'⟩)
    · intro i pl hm
      rw [h4] at hm
      obtain ⟨m, hmm, e⟩ := List.mem_map.1 hm
      injection e with d1 d2
      subst d1 d2
      obtain ⟨u1, l', opts', t, u2, e1, e2, e3⟩ := src m hmm
      exact ⟨u1, l', opts', t, u2, e1, by rw [e2]; rfl, e3⟩

/-- The same, inside the queue: an id that is handed out. -/
theorem Told.handed_id (h : Told cfg batch supply bg A) {u w : List (Act I)} {l now : Nat} {q : Str} {opts : ConsumeOpts} {r : Option Response}
    (hs : A = u ++ .did l (.qConsume q opts) now r :: w) {i : Bytes} (hi : i ∈ handedIds r) :
    ∃ x, life cfg q (events batch supply bg 0 u) = some x ∧ (Op.consume (opts.batchSize.getD batch) now).ok ∧ Fresh [] x.2 ∧
      i = uuidBytes (beVal i) ∧ beVal i ∈ pushIds x.2 ∧
      beVal i ∈ (Queue.step (Queue.run (QInner.empty x.1) x.2).1 (.consume (opts.batchSize.getD batch) now)).2.1.delivered := by
  rcases h.consume hs with ⟨h1, _⟩ | ⟨x, msgs, h1, h2, h3, h4, h5⟩
  · unfold handedIds at hi; rw [h1] at hi; simp at hi
  · have hf := h.fresh hs h1
    obtain ⟨k1, k2⟩ := consume_pushed hf h2 h3
    rw [handed_ids h4] at hi
    obtain ⟨m, hm, rfl⟩ := List.mem_map.1 hi
    obtain ⟨u1, l', opts', r', u2, e1, e2, _⟩ := life_pushed h.weak h1 (k2 m hm)
    have hv : beVal (uuidBytes m.id) = m.id := uuid_val (by rw [e2]; exact h.small hs e1)
    rw [hv]
    refine ⟨x, h1, h2, hf, rfl, Queue.mem_pushIds.2 ⟨_, _, _, k2 m hm⟩, ?_⟩
    rw [h3]
    exact List.mem_map.2 ⟨m, hm, rfl⟩

theorem ok_fresh {used : List Queue.Id} {ops : List Op} {o : Op} (hf : Fresh used ops) (ho : o.ok) (hp : o.pushId = []) : Fresh used (ops ++ [o]) := by
  have hq : pushIds (ops ++ [o]) = pushIds ops := by rw [Queue.pushIds_append, Queue.pushIds_cons, hp]; simp [pushIds]
  refine ⟨?_, by rw [hq]; exact hf.2.1, by rw [hq]; exact hf.2.2⟩
  intro o' ho'
  rcases List.mem_append.1 ho' with ho' | ho'
  · exact hf.1 o' ho'
  · rw [List.mem_singleton.1 ho']; exact ho

/-- A message that was handed out is handed out again only after it was refused or its timeout elapsed. -/
theorem Told.exclusive (h : Told cfg batch supply bg A) {u v w : List (Act I)} {l l' now now' vt : Nat} {q : Str} {opts opts' : ConsumeOpts}
    {r r' : Option Response} {i : Bytes}
    (hs : A = u ++ .did l (.qConsume q opts) now r :: v ++ .did l' (.qConsume q opts') now' r' :: w) (hi : i ∈ handedIds r) (hi' : i ∈ handedIds r')
    (hvt : ∀ l o t r, Act.did l (.qCreate q o) t r ∈ u → vt ≤ o.visibilityTimeoutMs.getD cfg.visibilityTimeout) :
    ∃ a ∈ v, (∃ l reason t r, a = .did l (.qNack i q reason) t r) ∨ timeoutFrom bg q (now + vt) a := by
  have hs1 : A = u ++ .did l (.qConsume q opts) now r :: (v ++ .did l' (.qConsume q opts') now' r' :: w) := by rw [hs]; simp
  obtain ⟨x, x1, x2, x3, x4, x5, x6⟩ := h.handed_id hs1 hi
  obtain ⟨y, y1, y2, y3, _, y5, y6⟩ := h.handed_id hs hi'
  obtain ⟨s1, s2, s3⟩ := same_life h.weak h.ids hs (a := .did l (.qConsume q opts) now r) (o := .consume (opts.batchSize.getD batch) now) rfl x2 x1 y1 (id := beVal i)
    (by rw [Queue.pushIds_append]; exact List.mem_append_left _ x5) y5
  apply Classical.byContradiction
  intro hno
  have hcfg : vt ≤ x.1.visibilityTimeout := by
    obtain ⟨u1, l2, o2, t2, r2, u2, e1, e2, _⟩ := life_acts h.weak x1
    rw [e2]
    exact hvt l2 o2 t2 r2 (by rw [e1]; simp)
  generalize hk : opsOn q (events batch supply bg (u.countP isPush + if isPush (Act.did l (.qConsume q opts) now r : Act I) then 1 else 0) v) = ops at s2
  have hops : ∀ o ∈ ops, ∃ a ∈ v, ∃ k, eventOf batch supply bg k a = some (.op q o) ∧ ∃ v1 v2, v = v1 ++ a :: v2 := by
    intro o ho
    rw [← hk] at ho
    obtain ⟨v1, a, v2, e1, e2⟩ := mem_ops_act ho
    exact ⟨a, by rw [e1]; simp, _, e2, v1, v2, e1⟩
  rw [s2] at y3
  have hf2 : Fresh (pushIds x.2) (ops ++ [.consume (opts'.batchSize.getD batch) now']) := by
    refine ok_fresh ?_ y2 rfl
    have := (fresh_append (a := x.2 ++ [.consume (opts.batchSize.getD batch) now]) (b := ops) (by simpa using y3)).2.2
    rw [Queue.pushIds_append] at this
    simpa [pushIds] using this
  have hC := Queue.C25_exclusive (Queue.reachable_run x.1 x3) (op := .consume (opts.batchSize.getD batch) now) (now := now) (.inr ⟨_, rfl⟩) x2 x6 hf2
    (by
      intro reason t hm
      rcases List.mem_append.1 hm with hm | hm
      · obtain ⟨a, ha, k, he, v1, v2, ev⟩ := hops _ hm
        rcases event_of_op h.weak he with ⟨_, _, _, _, _, _, ho⟩ | ⟨_, _, _, _, _, ho⟩ | ⟨_, _, _, _, _, ho⟩ |
          ⟨l2, i2, reason2, now2, r2, rfl, ho⟩ | ⟨_, _, _, _, _, ho⟩ | ho
        · cases ho
        · cases ho
        · cases ho
        · injection ho with o1 o2 o3
          have hfit := (h.exec (u ++ .did l (.qConsume q opts) now r :: v1) l2 (.qNack i2 q reason2) now2 r2
            (v2 ++ .did l' (.qConsume q opts') now' r' :: w) (by rw [hs, ev]; simp) rfl).2.1
          have hl : i2.length = 16 := hfit.1
          have : i2 = i := by rw [← val_uuid hl, ← o1, ← x4]
          subst this
          exact hno ⟨_, ha, .inl ⟨l2, reason2, now2, r2, rfl⟩⟩
        · cases ho
        · exact ho.2.2.2.1 _ _ _ rfl
      · cases List.mem_singleton.1 hm)
    (by
      intro t t' hm
      rcases List.mem_append.1 hm with hm | hm
      · obtain ⟨a, ha, k, he, v1, v2, ev⟩ := hops _ hm
        rcases event_of_op h.weak he with ⟨_, _, _, _, _, _, ho⟩ | ⟨_, _, _, _, _, ho⟩ | ⟨_, _, _, _, _, ho⟩ |
          ⟨_, _, _, _, _, _, ho⟩ | ⟨x2, t1, t2, rfl, hb, ho⟩ | ho
        · cases ho
        · cases ho
        · cases ho
        · cases ho
        · injection ho with o1 o2
          subst o1 o2
          apply Classical.byContradiction
          intro hlt
          exact hno ⟨_, ha, .inr ⟨x2, t, t', rfl, hb, by omega⟩⟩
        · exact absurd rfl (ho.2.2.2.2 _ _)
      · cases List.mem_singleton.1 hm)
  refine hC _ ?_ y6
  rw [s1, s2, Queue.run_append_snd, Queue.run_append_fst]
  simp [Queue.run]

/-- A message that was acknowledged is not handed out again. -/
theorem Told.ack_final (h : Told cfg batch supply bg A) {u v w : List (Act I)} {l l' t now : Nat} {q : Str} {opts : ConsumeOpts}
    {r : Option Response} {i : Bytes} (hs : A = u ++ .did l (.qAck i q) t (some .ok) :: v ++ .did l' (.qConsume q opts) now r :: w) : i ∉ handedIds r := by
  intro hi
  have hs1 : A = u ++ .did l (.qAck i q) t (some .ok) :: (v ++ .did l' (.qConsume q opts) now r :: w) := by rw [hs]; simp
  obtain ⟨y, y1, y2, y3, _, y5, y6⟩ := h.handed_id hs hi
  have ha := h.answer hs1 (q := q) (o := .ack (beVal i)) rfl
  cases hx : life cfg q (events batch supply bg 0 u) with
  | none => rw [hx] at ha; simp [queueAnswer, Queue.missing] at ha
  | some x =>
    rw [hx] at ha
    have hb : (Queue.step (Queue.run (QInner.empty x.1) x.2).1 (.ack (beVal i))).2.1 = .bool true := by
      have ha' : some Response.ok = queueAnswer (.qAck i q) (.out (.bool ((Queue.run (QInner.empty x.1) x.2).1.state.ack (beVal i)).1)) := ha
      show Queue.Out.bool ((Queue.run (QInner.empty x.1) x.2).1.state.ack (beVal i)).1 = .bool true
      cases hz : ((Queue.run (QInner.empty x.1) x.2).1.state.ack (beVal i)).1 with
      | true => rfl
      | false => rw [hz] at ha'; simp [queueAnswer] at ha'
    have hf := h.fresh hs1 hx
    have hr := Queue.reachable_run x.1 hf
    obtain ⟨_, a, hR⟩ := hr.inv
    have hu := (Queue.ack_gone hR hb).2
    obtain ⟨s1, s2, s3⟩ := same_life h.weak h.ids hs (a := .did l (.qAck i q) t (some .ok)) (o := .ack (beVal i)) rfl trivial hx y1 (id := beVal i)
      (by rw [Queue.pushIds_append]; exact List.mem_append_left _ hu) y5
    generalize opsOn q _ = ops at s2
    rw [s2] at y3
    have hf2 : Fresh (pushIds x.2) (ops ++ [.consume (opts.batchSize.getD batch) now]) := by
      refine ok_fresh ?_ y2 rfl
      have := (fresh_append (a := x.2 ++ [.ack (beVal i)]) (b := ops) (by simpa using y3)).2.2
      rw [Queue.pushIds_append] at this
      simpa [pushIds] using this
    refine (Queue.C27_ack_final hr hb hf2).1 _ ?_ y6
    rw [s1, s2, Queue.run_append_snd, Queue.run_append_fst]
    simp [Queue.run]

theorem ops_split {q : Str} : ∀ {h : List MEvent} {ops₁ ops₂ : List Op} {o : Op}, opsOn q h = ops₁ ++ o :: ops₂ →
    ∃ h₁ h₂, h = h₁ ++ .op q o :: h₂ ∧ opsOn q h₁ = ops₁ ∧ opsOn q h₂ = ops₂ ∧ o.ok := by
  intro h
  induction h with
  | nil => intro a b o h; cases a <;> cases h
  | cons e t ih =>
    intro ops₁ ops₂ o h
    rw [show e :: t = [e] ++ t from rfl, Queue.opsOn_append] at h
    have key : opsOn q [e] = [] ∨ ∃ o', e = .op q o' ∧ o'.ok ∧ opsOn q [e] = [o'] := by
      cases e with
      | op m o' =>
        by_cases hm : m = q ∧ o'.ok
        · obtain ⟨rfl, hm⟩ := hm
          exact .inr ⟨o', rfl, hm, by simp [opsOn, hm]⟩
        · exact .inl (by simp [opsOn, hm])
      | _ => exact .inl rfl
    rcases key with hk | ⟨o', rfl, hok, hk⟩
    · rw [hk, List.nil_append] at h
      obtain ⟨h1, h2, e1, e2, e3, e4⟩ := ih h
      refine ⟨e :: h1, h2, by rw [e1]; rfl, ?_, e3, e4⟩
      rw [show e :: h1 = [e] ++ h1 from rfl, Queue.opsOn_append, hk, e2]; rfl
    · rw [hk] at h
      cases ops₁ with
      | nil =>
        simp only [List.singleton_append, List.nil_append, List.cons.injEq] at h
        obtain ⟨rfl, h⟩ := h
        exact ⟨[], t, rfl, rfl, h, hok⟩
      | cons o'' ops₁ =>
        simp only [List.singleton_append, List.cons_append, List.cons.injEq] at h
        obtain ⟨rfl, h⟩ := h
        obtain ⟨h1, h2, e1, e2, e3, e4⟩ := ih h
        refine ⟨.op q o' :: h1, h2, by rw [e1]; rfl, ?_, e3, e4⟩
        rw [show MEvent.op q o' :: h1 = [MEvent.op q o'] ++ h1 from rfl, Queue.opsOn_append, hk, e2]; rfl

theorem outs_split {id : Queue.Id} : ∀ (ops : List Op) {q : QInner} {out : Queue.Out}, out ∈ (Queue.run q ops).2 → id ∈ out.delivered →
    ∃ ops₁ o ops₂, ops = ops₁ ++ o :: ops₂ ∧ id ∈ (Queue.step (Queue.run q ops₁).1 o).2.1.delivered := by
  intro ops
  induction ops with
  | nil => intro q out h; simp [Queue.run] at h
  | cons o t ih =>
    intro q out h hd
    simp only [Queue.run] at h
    rcases List.mem_cons.1 h with rfl | h
    · exact ⟨[], o, t, rfl, hd⟩
    · obtain ⟨o1, o', o2, rfl, h2⟩ := ih h hd
      exact ⟨o :: o1, o', o2, rfl, h2⟩

theorem ack_quiet (q : QInner) (i : Queue.Id) : (Queue.step q (.ack i)).2.1.delivered = [] := by
  simp only [Queue.step, Queue.Out.delivered]

theorem nack_quiet (q : QInner) (i : Queue.Id) (rs : Str) (t : Nat) : (Queue.step q (.nack i rs t)).2.1.delivered = [] := by
  simp only [Queue.step]
  repeat' split
  all_goals rfl

theorem tick_quiet (q : QInner) (t t' : Nat) : (Queue.step q (.tick t t')).2.1.delivered = [] := by
  simp only [Queue.step]
  repeat' split
  all_goals rfl

/-- A message that was pushed, and that nobody got, waits in its place. -/
theorem Told.waits (h : Told cfg batch supply bg A) {u v w : List (Act I)} {l t : Nat} {q : Str} {opts : PushOpts} {pl : Bytes}
    (hs : A = u ++ .did l (.qPush q opts pl) t (some .ok) :: v ++ w) (hd : ∀ a ∈ v, ¬ deletes q a)
    (hh : ∀ a ∈ v, ¬ handsOut q (pushedId supply u) a) (hst : ∀ a ∈ v, ¬ settles q (pushedId supply u) a) {B : Nat → Prop}
    (hB : ∀ j, j ≤ u.countP isPush → ¬ B (supply j))
    (hp : ∀ v₁ l' opts' pl' t' r' v₂, v = v₁ ++ .did l' (.qPush q opts' pl') t' r' :: v₂ → B (supply (u.countP isPush + 1 + v₁.countP isPush)) →
      opts'.priority.getD 0 ≤ opts.priority.getD 0) :
    ∃ y a, life cfg q (events batch supply bg 0 (u ++ .did l (.qPush q opts pl) t (some .ok) :: v)) = some y ∧
      Op.push (supply (u.countP isPush)) pl (opts.priority.getD 0) t ∈ y.2 ∧
      Queue.RQ (Queue.run (QInner.empty y.1) y.2).1 a (· ∈ pushIds y.2) ∧
      Spec.Queue.Ahead B (supply (u.countP isPush)) (opts.priority.getD 0) a := by
  have hs1 : A = u ++ .did l (.qPush q opts pl) t (some .ok) :: (v ++ w) := by rw [hs]; simp
  have ha := h.answer hs1 (q := q) (o := .push (supply (u.countP isPush)) pl (opts.priority.getD 0) t) rfl
  cases hx : life cfg q (events batch supply bg 0 u) with
  | none => rw [hx] at ha; simp [queueAnswer, Queue.missing] at ha
  | some x =>
    have hlife : ∀ v₁, (∀ a ∈ v₁, ¬ deletes q a) → life cfg q (events batch supply bg 0 (u ++ .did l (.qPush q opts pl) t (some .ok) :: v₁)) =
        some (x.1, x.2 ++ .push (supply (u.countP isPush)) pl (opts.priority.getD 0) t :: opsOn q (events batch supply bg (u.countP isPush + 1) v₁)) := by
      intro v1 hv1
      have he : events batch supply bg 0 (u ++ .did l (.qPush q opts pl) t (some .ok) :: v1) = events batch supply bg 0 u ++
          ([.op q (.push (supply (u.countP isPush)) pl (opts.priority.getD 0) t)] ++ events batch supply bg (u.countP isPush + 1) v1) := by
        rw [events_append, Nat.zero_add]; rfl
      rw [he, life_append, hx, life_stays _ (by
        intro hm
        rcases List.mem_append.1 hm with hm | hm
        · simp at hm
        · exact event_delete h.weak hv1 hm), Queue.opsOn_append]
      have : opsOn q [MEvent.op q (.push (supply (u.countP isPush)) pl (opts.priority.getD 0) t)] =
          [.push (supply (u.countP isPush)) pl (opts.priority.getD 0) t] := by simp [opsOn, Op.ok]
      rw [this]; simp
    have hf := h.fresh hs (hlife v hd)
    simp only at hf
    have hf' : Fresh (pushIds (x.2 ++ [.push (supply (u.countP isPush)) pl (opts.priority.getD 0) t])) (opsOn q (events batch supply bg (u.countP isPush + 1) v)) :=
      (fresh_append (a := x.2 ++ [.push (supply (u.countP isPush)) pl (opts.priority.getD 0) t]) (by simpa using hf)).2.2
    have hf0 : Fresh (pushIds x.2) (.push (supply (u.countP isPush)) pl (opts.priority.getD 0) t :: opsOn q (events batch supply bg (u.countP isPush + 1) v)) := (fresh_append hf).2.2
    have hfx := (fresh_append hf).1
    obtain ⟨_, a, hR⟩ := (Queue.reachable_run x.1 hfx).inv
    obtain ⟨hok, hnew, _⟩ := hf0.cons
    obtain ⟨s1, s2, s3⟩ := hR.stepU hok hnew
    have hAh : Spec.Queue.Ahead B (supply (u.countP isPush)) (opts.priority.getD 0)
        (Queue.sstep (Queue.run (QInner.empty x.1) x.2).1.cfg a (.push (supply (u.countP isPush)) pl (opts.priority.getD 0) t)).1 := by
      refine Spec.Queue.Ahead.push ?_ (hB _ (Nat.le_refl _)) pl t
      intro i hi
      have hu := hR.ids_used hi
      obtain ⟨u1, l1, o1, t1, r1, u2, e1, _, e3, _⟩ := life_acts h.weak hx
      rw [e3] at hu
      have hle := h.le hs1
      have hc : u.countP isPush = u1.countP isPush + u2.countP isPush := by rw [e1, List.countP_append, List.countP_cons]; simp [isPush]
      obtain ⟨j, _, j2, rfl⟩ := (event_ids h.weak h.ids q u2 _ (by omega) (batch := batch)).2 i hu
      exact hB j (by omega)
    have hops : ∀ o ∈ opsOn q (events batch supply bg (u.countP isPush + 1) v), ∃ v₁ a v₂, v = v₁ ++ a :: v₂ ∧
        eventOf batch supply bg (u.countP isPush + 1 + v₁.countP isPush) a = some (.op q o) := fun o ho => mem_ops_act ho
    have fits : ∀ v₁ l' cmd now r v₂, v = v₁ ++ .did l' cmd now r :: v₂ → isQueue cmd = true → cmd.Fits := by
      intro v1 l' cmd now r v2 hv hq
      exact (h.exec (u ++ .did l (.qPush q opts pl) t (some .ok) :: v1) l' cmd now r (v2 ++ w) (by rw [hs, hv]; simp) hq).2.1
    obtain ⟨a', g1, g2⟩ := Queue.ahead_run (B := B) (A := supply (u.countP isPush)) (p := opts.priority.getD 0)
      (opsOn q (events batch supply bg (u.countP isPush + 1) v)) s1 (by rw [Queue.pushIds_append] at hf'; simpa [pushIds, Op.pushId] using hf') hAh
      (by
        intro hm
        obtain ⟨v1, a, v2, hv, he⟩ := hops _ hm
        rcases event_of_op h.weak he with ⟨_, _, _, _, _, _, ho⟩ | ⟨_, _, _, _, _, ho⟩ | ⟨l2, i2, now2, r2, rfl, ho⟩ |
          ⟨_, _, _, _, _, _, ho⟩ | ⟨_, _, _, _, _, ho⟩ | ho
        · cases ho
        · cases ho
        · injection ho with o1
          have hl : i2.length = 16 := (fits _ _ _ _ _ _ hv rfl).1
          refine hst (.did l2 (.qAck i2 q) now2 r2) (by rw [hv]; simp) (.inl ⟨l2, now2, r2, ?_⟩)
          unfold pushedId
          rw [o1, val_uuid hl]
        · cases ho
        · cases ho
        · exact ho.2.2.1 _ rfl)
      (by
        intro reason t2 hm
        obtain ⟨v1, a, v2, hv, he⟩ := hops _ hm
        rcases event_of_op h.weak he with ⟨_, _, _, _, _, _, ho⟩ | ⟨_, _, _, _, _, ho⟩ | ⟨_, _, _, _, _, ho⟩ |
          ⟨l2, i2, reason2, now2, r2, rfl, ho⟩ | ⟨_, _, _, _, _, ho⟩ | ho
        · cases ho
        · cases ho
        · cases ho
        · injection ho with o1
          have hl : i2.length = 16 := (fits _ _ _ _ _ _ hv rfl).1
          refine hst (.did l2 (.qNack i2 q reason2) now2 r2) (by rw [hv]; simp) (.inr ⟨l2, reason2, now2, r2, ?_⟩)
          unfold pushedId
          rw [o1, val_uuid hl]
        · cases ho
        · exact ho.2.2.2.1 _ _ _ rfl)
      (by
        intro id pl2 pr2 t2 hm hb
        obtain ⟨v1, a, v2, hv, he⟩ := hops _ hm
        rcases event_of_op h.weak he with ⟨l2, opts2, pl3, now2, r2, rfl, ho⟩ | ⟨_, _, _, _, _, ho⟩ | ⟨_, _, _, _, _, ho⟩ |
          ⟨_, _, _, _, _, _, ho⟩ | ⟨_, _, _, _, _, ho⟩ | ho
        · injection ho with o1 o2 o3 o4
          subst o3
          exact hp v1 l2 opts2 pl3 now2 r2 v2 hv (o1 ▸ hb)
        · cases ho
        · cases ho
        · cases ho
        · cases ho
        · simp [Op.pushId] at ho)
      (by
        intro out hout hdel
        obtain ⟨o1, o, o2, e1, e2⟩ := outs_split _ hout hdel
        obtain ⟨h1, h2, f1, f2, f3, f4⟩ := ops_split e1
        obtain ⟨v1, a2, v2, hv, g1, he, _⟩ := events_split batch supply bg f1
        rw [← f2, ← g1] at e2
        rcases event_of_op h.weak he with ⟨l2, opts2, pl3, now2, r2, rfl, rfl⟩ | ⟨l2, opts2, now2, r2, rfl, rfl⟩ | ⟨_, _, _, _, _, rfl⟩ |
          ⟨_, _, _, _, _, _, rfl⟩ | ⟨_, _, _, _, _, rfl⟩ | ho
        · simp [Queue.step, Queue.Out.delivered] at e2
        · have hl1 := hlife v1 (fun a ha => hd a (by rw [hv]; simp [ha]))
          rcases h.consume (u := u ++ .did l (.qPush q opts pl) t (some .ok) :: v1) (l := l2) (now := now2) (q := q) (opts := opts2) (r := r2) (w := v2 ++ w)
            (by rw [hs, hv]; simp) with ⟨_, k⟩ | ⟨y, msgs, k1, k2, k3, k4, k5⟩
          · rcases k with k | k
            · rw [hl1] at k; cases k
            · exact k.1 f4
          · rw [hl1] at k1
            injection k1 with k1
            subst k1
            simp only at k3
            rw [Queue.run_append_fst] at k3
            simp only [Queue.run] at k3
            rw [k3] at e2
            refine hh _ (by rw [hv]; simp) ⟨l2, opts2, now2, r2, rfl, ?_⟩
            rw [handed_ids k4]
            obtain ⟨m, hm, hmi⟩ := List.mem_map.1 e2
            exact List.mem_map.2 ⟨m, hm, by unfold pushedId; rw [← hmi]⟩
        · rw [ack_quiet] at e2; simp at e2
        · rw [nack_quiet] at e2; simp at e2
        · rw [tick_quiet] at e2; simp at e2
        · rw [ho.2.1] at e2; simp at e2)
    refine ⟨_, a', hlife v hd, by simp, ?_, g2⟩
    simp only
    rw [Queue.run_append_fst, Queue.pushIds_append, Queue.pushIds_cons, ← List.append_assoc]
    exact g1

theorem push_unique {id : Queue.Id} {pl pl' : Bytes} {p p' t t' : Nat} : ∀ {ops : List Op}, (pushIds ops).Nodup → Op.push id pl p t ∈ ops →
    Op.push id pl' p' t' ∈ ops → pl = pl' := by
  intro ops
  induction ops with
  | nil => intro _ h; simp at h
  | cons o ops ih =>
    intro hn h1 h2
    rw [Queue.pushIds_cons, List.nodup_append] at hn
    rcases List.mem_cons.1 h1 with h1 | h1 <;> rcases List.mem_cons.1 h2 with h2 | h2
    · rw [← h1] at h2; injection h2 with _ h2; exact h2.symm
    · rw [← h1] at hn
      exact absurd rfl (hn.2.2 id (by simp [Op.pushId]) id (Queue.mem_pushIds.2 ⟨_, _, _, h2⟩))
    · rw [← h2] at hn
      exact absurd rfl (hn.2.2 id (by simp [Op.pushId]) id (Queue.mem_pushIds.2 ⟨_, _, _, h1⟩))
    · exact ih hn.2.1 h1 h2

/-- A message that waits is handed out as soon as there is room for it. -/
theorem Told.no_loss (h : Told cfg batch supply bg A) {u v w : List (Act I)} {l t l' now : Nat} {q : Str} {opts : PushOpts} {pl : Bytes}
    {opts' : ConsumeOpts} {r : Option Response}
    (hs : A = u ++ .did l (.qPush q opts pl) t (some .ok) :: v ++ .did l' (.qConsume q opts') now r :: w) (hd : ∀ a ∈ v, ¬ deletes q a)
    (hh : ∀ a ∈ v, ¬ handsOut q (pushedId supply u) a) (hst : ∀ a ∈ v, ¬ settles q (pushedId supply u) a) (hr : r ≠ none)
    (hn : (handed r).length < opts'.batchSize.getD batch) : (pushedId supply u, pl) ∈ handed r := by
  obtain ⟨y, a, y1, y2, y3, y4⟩ := h.waits (B := fun _ => False) hs hd hh hst (fun _ _ => id) (fun _ _ _ _ _ _ _ _ => False.elim)
  rcases h.consume hs with ⟨_, k⟩ | ⟨x, msgs, k1, k2, k3, k4, k5⟩
  · rcases k with k | k
    · rw [y1] at k; cases k
    · exact absurd k.2 hr
  · rw [y1] at k1
    injection k1 with k1
    subst k1
    obtain ⟨s1, s2, s3⟩ := y3.stepU (op := .consume (opts'.batchSize.getD batch) now) k2 (by simp [Op.pushId])
    rw [k3] at s3
    have e : (Queue.sstep (Queue.run (QInner.empty y.1) y.2).1.cfg a (.consume (opts'.batchSize.getD batch) now)).2.delivered =
        (a.ready.take (opts'.batchSize.getD batch)).map (·.id) := by
      simp only [Queue.sstep, Op.req, Spec.Queue.step, Spec.Queue.Ans.delivered]
      rw [(Spec.Queue.serveN_eq _ _ _).1, List.map_map]; rfl
    rw [e] at s3
    have s4 : msgs.map (·.id) = (a.ready.take (opts'.batchSize.getD batch)).map (·.id) := s3
    have hlen : msgs.length = min (opts'.batchSize.getD batch) a.ready.length := by
      have := congrArg List.length s4
      simpa using this
    rw [k4, List.length_map] at hn
    rw [List.take_of_length_le (by omega)] at s4
    obtain ⟨l1, x, r1, e1, e2, _⟩ := y4.line
    have hm : supply (u.countP isPush) ∈ msgs.map (·.id) := by
      rw [s4, e1, ← e2]; simp
    obtain ⟨m, hm, hmi⟩ := List.mem_map.1 hm
    have hf := h.fresh hs y1
    have hm2 := (consume_pushed hf k2 k3).2 m hm
    rw [k4]
    refine List.mem_map.2 ⟨m, hm, ?_⟩
    have hmi' : m.id = supply (u.countP isPush) := hmi
    rw [hmi'] at hm2 ⊢
    rw [push_unique hf.2.1 hm2 y2]; rfl

/-- A message is handed out before every message that was pushed after it with the same or a lower priority. -/
theorem Told.order (h : Told cfg batch supply bg A) {u v w z : List (Act I)} {l t l₂ t₂ l' now : Nat} {q : Str} {opts opts₂ : PushOpts} {pl pl₂ : Bytes}
    {opts' : ConsumeOpts} {r r₂ : Option Response}
    (hs : A = u ++ .did l (.qPush q opts pl) t (some .ok) :: v ++ .did l₂ (.qPush q opts₂ pl₂) t₂ r₂ :: w ++ .did l' (.qConsume q opts') now r :: z)
    (hpr : opts₂.priority.getD 0 ≤ opts.priority.getD 0) (hd : ∀ a ∈ v ++ w, ¬ deletes q a)
    (hh : ∀ a ∈ v ++ w, ¬ handsOut q (pushedId supply u) a) (hst : ∀ a ∈ v ++ w, ¬ settles q (pushedId supply u) a)
    (hB : pushedId supply (u ++ .did l (.qPush q opts pl) t (some .ok) :: v) ∈ handedIds r) :
    ∃ x₁ x₂ x₃, handedIds r = x₁ ++ pushedId supply u :: x₂ ++ pushedId supply (u ++ .did l (.qPush q opts pl) t (some .ok) :: v) :: x₃ := by
  have hcount : (u ++ Act.did l (.qPush q opts pl) t (some .ok) :: v).countP isPush = u.countP isPush + 1 + v.countP isPush := by
    rw [List.countP_append, List.countP_cons]; simp [isPush]; omega
  have hlt : u.countP isPush + 1 + v.countP isPush < A.countP isPush := by
    rw [hs, List.countP_append, List.countP_append, hcount, List.countP_cons]
    simp only [isPush, if_true]; omega
  have hmid : ∀ a, a ∈ v ++ .did l₂ (.qPush q opts₂ pl₂) t₂ r₂ :: w → a ∈ v ++ w ∨ a = .did l₂ (.qPush q opts₂ pl₂) t₂ r₂ := by
    intro a ha
    simp only [List.mem_append, List.mem_cons] at ha ⊢
    rcases ha with ha | rfl | ha <;> simp_all
  have hs' : A = u ++ .did l (.qPush q opts pl) t (some .ok) :: (v ++ .did l₂ (.qPush q opts₂ pl₂) t₂ r₂ :: w) ++ .did l' (.qConsume q opts') now r :: z := by
    rw [hs]; simp
  obtain ⟨y, a, y1, y2, y3, y4⟩ := h.waits (B := fun i => i = supply (u.countP isPush + 1 + v.countP isPush)) hs'
    (by intro a ha; rcases hmid a ha with ha | rfl
        · exact hd a ha
        · rintro ⟨_, _, _, e⟩; cases e)
    (by intro a ha; rcases hmid a ha with ha | rfl
        · exact hh a ha
        · rintro ⟨_, _, _, _, e, _⟩; cases e)
    (by intro a ha; rcases hmid a ha with ha | rfl
        · exact hst a ha
        · rintro (⟨_, _, _, e⟩ | ⟨_, _, _, _, e⟩) <;> cases e)
    (by intro j hj e; have := h.ids.inj _ _ (by omega) hlt e; omega)
    (by
      intro v1 l3 o3 p3 t3 r3 v2 hv hb
      have hv' := congrArg (List.countP isPush) hv
      rw [List.countP_append, List.countP_append, List.countP_cons, List.countP_cons] at hv'
      simp only [isPush, if_true] at hv'
      have hle := h.le hs'
      rw [List.countP_append, List.countP_cons, List.countP_append, List.countP_cons] at hle
      simp only [isPush, if_true] at hle
      have hc := h.ids.inj _ _ (by omega) hlt hb
      have hc' : v1.countP isPush = v.countP isPush := by omega
      -- the push with that number is the second one
      have hlen : v1 = v := by
        rcases List.append_eq_append_iff.1 hv with ⟨c, e1, e2⟩ | ⟨c, e1, e2⟩
        · cases c with
          | nil => simpa using e1
          | cons b c =>
            simp only [List.cons_append, List.cons.injEq] at e2
            obtain ⟨rfl, _⟩ := e2
            rw [e1, List.countP_append, List.countP_cons] at hc'
            simp [isPush] at hc'
        · cases c with
          | nil => simpa using e1.symm
          | cons b c =>
            simp only [List.cons_append, List.cons.injEq] at e2
            obtain ⟨rfl, _⟩ := e2
            rw [e1, List.countP_append, List.countP_cons] at hc'
            simp [isPush] at hc'
      subst hlen
      have := List.append_cancel_left hv
      simp only [List.cons.injEq, Act.did.injEq, Cmd.qPush.injEq] at this
      obtain ⟨⟨_, ⟨_, rfl, _⟩, _⟩, _⟩ := this
      exact hpr)
  rcases h.consume hs' with ⟨k, _⟩ | ⟨x, msgs, k1, k2, k3, k4, k5⟩
  · unfold handedIds at hB; rw [k] at hB; simp at hB
  · rw [y1] at k1
    injection k1 with k1
    subst k1
    obtain ⟨s1, s2, s3⟩ := y3.stepU (op := .consume (opts'.batchSize.getD batch) now) k2 (by simp [Op.pushId])
    rw [k3] at s3
    have hids : handedIds r = (msgs.map (·.id)).map uuidBytes := by rw [handed_ids k4, List.map_map]; rfl
    have s4 : msgs.map (·.id) = (Queue.sstep (Queue.run (QInner.empty y.1) y.2).1.cfg a (.consume (opts'.batchSize.getD batch) now)).2.delivered := s3
    have hb' : supply (u.countP isPush + 1 + v.countP isPush) ∈ msgs.map (·.id) := by
      rw [hids] at hB
      unfold pushedId at hB
      rw [hcount] at hB
      obtain ⟨i, hi, he⟩ := List.mem_map.1 hB
      have hsm : i < 2 ^ 128 := by
        obtain ⟨m, hm, rfl⟩ := List.mem_map.1 hi
        obtain ⟨u1, _, _, _, _, e1, e2, _⟩ := life_pushed h.weak y1 ((consume_pushed (h.fresh hs' y1) k2 k3).2 m hm)
        show m.id < 2 ^ 128
        rw [e2]; exact h.small hs' e1
      rw [← uuid_inj hsm (h.ids.small _ hlt) he]; exact hi
    rcases y4.step (vt := (Queue.run (QInner.empty y.1) y.2).1.cfg.visibilityTimeout) (mr := (Queue.run (QInner.empty y.1) y.2).1.cfg.maxRetries)
      (tr := Queue.timeoutReason) (op := (Op.consume (opts'.batchSize.getD batch) now).req) (by simp [Op.req]) (by simp [Op.req]) (by simp [Op.req]) with
      ⟨_, g⟩ | ⟨l1, r1, g1, g2⟩
    · exfalso
      rw [s4] at hb'
      exact g _ hb' rfl
    · have s5 : msgs.map (·.id) = l1 ++ supply (u.countP isPush) :: r1 := by rw [s4]; exact g1
      rw [s5] at hb'
      rcases List.mem_append.1 hb' with hb' | hb'
      · exact absurd rfl (g2 _ hb')
      · rcases List.mem_cons.1 hb' with hb' | hb'
        · have := h.ids.inj _ _ hlt (by omega) hb'; omega
        · obtain ⟨r2, r3, rfl⟩ := List.append_of_mem hb'
          refine ⟨l1.map uuidBytes, r2.map uuidBytes, r3.map uuidBytes, ?_⟩
          rw [hids, s5]
          unfold pushedId
          rw [hcount]
          simp

end Verif.Rpc
