import Verif.Proofs.QueueRpc2
import Verif.Proofs.QueueEra

/-!
# Lemmas about the queues behind the network: crashes
-/

namespace Verif.Rpc

open Verif Verif.Wire Verif.Sdk
open Verif.Queue (Config Op MEvent Event Mgr life Fresh pushIds QInner era eraSys evsOn opsOf ValidHist eventIds)

variable {E I : Type}

/-- A list of acts in which every queue command has the answer that the acts before it, crashes included, imply. -/
structure Stormy (cfg : Config) (batch : Nat) (supply : Nat → Queue.Id) (bg : I → Option MEvent) (A : List (Act I)) : Prop where
  exec : ∀ u l cmd now r w, A = u ++ .did l cmd now r :: w → isQueue cmd = true →
    (r = (queueExec cfg batch supply now cmd ⟨(Mgr.new.run cfg (events batch supply bg 0 u)).1, u.countP isPush⟩).2) ∧
    cmd.Fits ∧ ∀ d, r = some (.data d) → d.length < 2 ^ 32
  tasks : QTasks bg
  ids : Uuids supply (A.countP isPush)
  plain : ∀ l q o t r, Act.did l (.qCreate q o) t r ∈ A → Queue.plainName q

theorem stormy (pr : Printer) {srv : Server E I} {cfg : Config} {batch : Nat} {supply : Nat → Queue.Id} {part : E → Queues}
    {bg : I → Option MEvent} (hp : QueueHost srv cfg batch supply part bg) {e0 : E} (h0 : part e0 = {}) (es : List (Ev I))
    (ho : Ordinary pr srv ((World.init e0).run pr srv es).2) (hu : Uuids supply ((acts ((World.init e0).run pr srv es).2).countP isPush))
    (hn : ∀ l q o t r, Act.did l (.qCreate q o) t r ∈ acts ((World.init e0).run pr srv es).2 → Queue.plainName q) :
    Stormy cfg batch supply bg (acts ((World.init e0).run pr srv es).2) :=
  ⟨fun _ _ _ _ _ _ hs hq => act_exec pr hp h0 es ho hs hq, hp.tasks, hu, hn⟩

/-- The queues after a run. -/
theorem queues_after (pr : Printer) {srv : Server E I} {cfg : Config} {batch : Nat} {supply : Nat → Queue.Id} {part : E → Queues}
    {bg : I → Option MEvent} (hp : QueueHost srv cfg batch supply part bg) {e0 : E} (h0 : part e0 = {}) (es : List (Ev I))
    (ho : Ordinary pr srv ((World.init e0).run pr srv es).2) :
    (part ((World.init e0).run pr srv es).1.engine).mgr = (Mgr.new.run cfg (events batch supply bg 0 (acts ((World.init e0).run pr srv es).2))).1 := by
  rw [(holds_run pr srv e0 es ho).2.engine, queues_state hp h0]

variable {cfg : Config} {batch : Nat} {supply : Nat → Queue.Id} {bg : I → Option MEvent} {A : List (Act I)}

theorem Stormy.left {u w : List (Act I)} (h : Stormy cfg batch supply bg (u ++ w)) : Stormy cfg batch supply bg u := by
  refine ⟨fun a l cmd now r b hs hq => h.exec a l cmd now r (b ++ w) (by rw [hs]; simp) hq, h.tasks, ?_, fun l q o t r hm => h.plain l q o t r (List.mem_append_left _ hm)⟩
  have hle : u.countP isPush ≤ (u ++ w).countP isPush := by rw [List.countP_append]; omega
  exact ⟨fun i j hi hj => h.ids.inj i j (Nat.lt_of_lt_of_le hi hle) (Nat.lt_of_lt_of_le hj hle), fun i hi => h.ids.small i (Nat.lt_of_lt_of_le hi hle)⟩

theorem Stormy.names (h : Stormy cfg batch supply bg A) : Queue.PlainNames (events batch supply bg 0 A) := by
  intro e he
  cases e with
  | create n vt mr t =>
    obtain ⟨h1, h2, hs⟩ := List.append_of_mem he
    obtain ⟨u, a, w, e1, _, e3, _⟩ := events_split batch supply bg hs
    obtain ⟨l, opts, r, rfl, _, _⟩ := event_create h.tasks e3
    exact h.plain l n opts t r (by rw [e1]; simp)
  | _ => trivial

theorem Stormy.fresh (h : Stormy cfg batch supply bg A) {q : Str} {x : Config × List Event}
    (hx : era cfg q (events batch supply bg 0 A) = some x) : ValidHist x.2 :=
  Queue.era_valid hx (fun _ hy => life_fresh h.tasks h.ids (Nat.le_refl _) hy)

theorem era_to_life {q : Str} {H : List MEvent} {x : Config × List Event} (h : era cfg q H = some x) : life cfg q H = some (x.1, opsOf x.2) := by
  rw [← Queue.era_life, h]; rfl

theorem life_to_era {q : Str} {H : List MEvent} {z : Config × List Op} (h : life cfg q H = some z) : ∃ x, era cfg q H = some x ∧ z = (x.1, opsOf x.2) := by
  rw [← Queue.era_life] at h
  cases hx : era cfg q H with
  | none => rw [hx] at h; cases h
  | some x => rw [hx] at h; exact ⟨x, rfl, by injection h with h; exact h.symm⟩

/-- The queue in the server. -/
theorem Stormy.live (h : Stormy cfg batch supply bg A) {q : Str} {x : Config × List Event} (hx : era cfg q (events batch supply bg 0 A) = some x) :
    mget (Mgr.new.run cfg (events batch supply bg 0 A)).1.live q = some ⟨(eraSys x).q, (eraSys x).pending⟩ := by
  have := (Queue.era_agrees cfg q h.names).1
  rw [hx] at this
  exact congrArg Prod.fst this

/-- The answer of an act on a queue. -/
theorem Stormy.answer (h : Stormy cfg batch supply bg A) {u w : List (Act I)} {l now : Nat} {cmd : Cmd} {r : Option Response}
    (hs : A = u ++ .did l cmd now r :: w) {q : Str} {o : Op} (hc : queueCall batch (supply (u.countP isPush)) now cmd = some (.op q o)) :
    r = queueAnswer cmd (match era cfg q (events batch supply bg 0 u) with
      | none => Queue.missing o
      | some x => .out (Queue.step (eraSys x).q o).2.1) := by
  have hq : isQueue cmd = true := by rw [← call_isSome (batch := batch) (id := supply (u.countP isPush)) (now := now), hc]; rfl
  have h1 := (h.exec u l cmd now r w hs hq).1
  subst hs
  rw [h1]
  simp only [queueExec, hc]
  rw [Queue.era_answer cfg q h.left.names]
  cases era cfg q (events batch supply bg 0 u) <;> rfl

/-- The answer of a consume: nothing, or what the queue gives. -/
theorem Stormy.consume (h : Stormy cfg batch supply bg A) {u w : List (Act I)} {l now : Nat} {q : Str} {opts : ConsumeOpts} {r : Option Response}
    (hs : A = u ++ .did l (.qConsume q opts) now r :: w) :
    (handed r = [] ∧ (era cfg q (events batch supply bg 0 u) = none ∨ ¬ (Op.consume (opts.batchSize.getD batch) now).ok ∧ r = none)) ∨
    ∃ x msgs, era cfg q (events batch supply bg 0 u) = some x ∧ (Op.consume (opts.batchSize.getD batch) now).ok ∧
      (Queue.step (eraSys x).q (.consume (opts.batchSize.getD batch) now)).2.1 = .msgs msgs ∧
      handed r = msgs.map (fun m => (uuidBytes m.id, m.payload)) := by
  have h1 := h.answer hs (q := q) (o := .consume (opts.batchSize.getD batch) now) rfl
  have h2 := (h.exec u l _ now r w hs rfl).2.2
  cases hl : era cfg q (events batch supply bg 0 u) with
  | none =>
    rw [hl] at h1
    left
    rw [h1]; exact ⟨rfl, .inl rfl⟩
  | some x =>
    rw [hl] at h1
    by_cases hok : (Op.consume (opts.batchSize.getD batch) now).ok
    · right
      have hk : ¬ (opts.batchSize.getD batch * Queue.msgSize > Queue.isizeMax) := Nat.not_lt.2 hok
      simp only [Queue.step, hk, if_false, queueAnswer] at h1
      refine ⟨x, _, rfl, hok, by simp only [Queue.step, hk, if_false]; rfl, ?_⟩
      have h3 := h2 _ h1
      rw [h1]
      exact handed_wire (by intro m hm; obtain ⟨y, _, rfl⟩ := List.mem_map.1 hm; exact uuid_length _) h3
    · left
      have hk : opts.batchSize.getD batch * Queue.msgSize > Queue.isizeMax := Nat.lt_of_not_le hok
      simp only [Queue.step, hk, if_true, queueAnswer] at h1
      rw [h1]; exact ⟨rfl, .inr ⟨hok, rfl⟩⟩

theorem Stormy.small (h : Stormy cfg batch supply bg A) {u w : List (Act I)} {l t : Nat} {q : Str} {opts : PushOpts} {pl : Bytes} {r : Option Response}
    (hs : A = u ++ .did l (.qPush q opts pl) t r :: w) : supply (u.countP isPush) < 2 ^ 128 := by
  refine h.ids.small _ ?_
  rw [hs, List.countP_append, List.countP_cons]
  simp only [isPush, if_true]; omega

/-- Everything that a consume hands out was pushed to the queue before, and the queue was not deleted in between, crashes or not. -/
theorem Stormy.faithful (h : Stormy cfg batch supply bg A) {u w : List (Act I)} {l now : Nat} {q : Str} {opts : ConsumeOpts} {r : Option Response}
    (hs : A = u ++ .did l (.qConsume q opts) now r :: w) :
    (handedIds r).Nodup ∧ ∀ i pl, (i, pl) ∈ handed r → ∃ u₁ l' opts' t u₂, u = u₁ ++ .did l' (.qPush q opts' pl) t (some .ok) :: u₂ ∧
      i = pushedId supply u₁ ∧ ∀ a ∈ u₂, ¬ deletes q a := by
  rcases h.consume hs with ⟨h1, _⟩ | ⟨x, msgs, h1, h2, h3, h4⟩
  · unfold handedIds; rw [h1]; exact ⟨.nil, by simp⟩
  · have hst : Stormy cfg batch supply bg u := by subst hs; exact h.left
    obtain ⟨k1, k2⟩ := Queue.era_pushed (c := x.1) (es := x.2) (hst.fresh h1) h2 h3
    have src : ∀ m ∈ msgs, ∃ u₁ l' opts' t u₂, u = u₁ ++ .did l' (.qPush q opts' m.payload) t (some .ok) :: u₂ ∧
        m.id = supply (u₁.countP isPush) ∧ ∀ a ∈ u₂, ¬ deletes q a := by
      intro m hm
      obtain ⟨u1, l', opts', r', u2, e1, e2, _, e4, z, e5⟩ := life_pushed h.tasks (era_to_life h1) (k2 m hm)
      have hr := h.answer (u := u1) (l := l') (now := m.createdAt) (cmd := .qPush q opts' m.payload) (r := r')
        (w := u2 ++ .did l (.qConsume q opts) now r :: w) (by rw [hs, e1]; simp)
        (q := q) (o := .push (supply (u1.countP isPush)) m.payload (opts'.priority.getD 0) m.createdAt) rfl
      obtain ⟨z', e6, _⟩ := life_to_era e5
      rw [e6] at hr
      have hr' : r' = some .ok := hr
      subst hr'
      exact ⟨u1, l', opts', _, u2, e1, e2, delete_event e4⟩
    refine ⟨?_, ?_⟩
    · rw [handed_ids h4, show msgs.map (fun m => uuidBytes m.id) = (msgs.map (·.id)).map uuidBytes by rw [List.map_map]; rfl]
      refine List.Pairwise.map _ (R := fun a b => a ≠ b ∧ a < 2 ^ 128 ∧ b < 2 ^ 128) ?_ ?_
      · intro a b hab he; exact hab.1 (uuid_inj hab.2.1 hab.2.2 he)
      · have hb : ∀ i ∈ msgs.map (·.id), i < 2 ^ 128 := by
          intro i hi
          obtain ⟨m, hm, rfl⟩ := List.mem_map.1 hi
          obtain ⟨u1, _, _, _, _, e1, e2, _⟩ := src m hm
          show m.id < 2 ^ 128
          rw [e2]; exact hst.small e1
        exact k1.imp_of_mem (fun ha hb' hne => ⟨hne, hb _ ha, hb _ hb'⟩)
    · intro i pl hm
      rw [h4] at hm
      obtain ⟨m, hmm, e⟩ := List.mem_map.1 hm
      injection e with d1 d2
      subst d1 d2
      obtain ⟨u1, l', opts', t, u2, e1, e2, e3⟩ := src m hmm
      exact ⟨u1, l', opts', t, u2, e1, by rw [e2]; rfl, e3⟩

/-- The same, inside the queue: an id that is handed out. -/
theorem Stormy.handed_id (h : Stormy cfg batch supply bg A) {u w : List (Act I)} {l now : Nat} {q : Str} {opts : ConsumeOpts} {r : Option Response}
    (hs : A = u ++ .did l (.qConsume q opts) now r :: w) {i : Bytes} (hi : i ∈ handedIds r) :
    ∃ x, era cfg q (events batch supply bg 0 u) = some x ∧ (Op.consume (opts.batchSize.getD batch) now).ok ∧ ValidHist x.2 ∧
      i = uuidBytes (beVal i) ∧ beVal i ∈ eventIds x.2 ∧
      beVal i ∈ (Queue.step (eraSys x).q (.consume (opts.batchSize.getD batch) now)).2.1.delivered := by
  rcases h.consume hs with ⟨h1, _⟩ | ⟨x, msgs, h1, h2, h3, h4⟩
  · unfold handedIds at hi; rw [h1] at hi; simp at hi
  · have hst : Stormy cfg batch supply bg u := by subst hs; exact h.left
    have hf := hst.fresh h1
    obtain ⟨k1, k2⟩ := Queue.era_pushed (c := x.1) (es := x.2) hf h2 h3
    rw [handed_ids h4] at hi
    obtain ⟨m, hm, rfl⟩ := List.mem_map.1 hi
    obtain ⟨u1, l', opts', r', u2, e1, e2, _⟩ := life_pushed h.tasks (era_to_life h1) (k2 m hm)
    have hv : beVal (uuidBytes m.id) = m.id := uuid_val (by rw [e2]; exact hst.small e1)
    rw [hv]
    refine ⟨x, h1, h2, hf, rfl, by rw [← Queue.pushIds_opsOf]; exact Queue.mem_pushIds.2 ⟨_, _, _, k2 m hm⟩, ?_⟩
    rw [h3]
    exact List.mem_map.2 ⟨m, hm, rfl⟩

/-- Two moments in the life of a queue with a message in common belong to the same life. -/
theorem Stormy.same (h : Stormy cfg batch supply bg A) {q : Str} {u v w : List (Act I)} {a : Act I} {o : Op} {x y : Config × List Event}
    (hs : A = u ++ a :: v ++ w) (ha : eventOf batch supply bg (u.countP isPush) a = some (.op q o)) (hok : o.ok)
    (hx : era cfg q (events batch supply bg 0 u) = some x) (hy : era cfg q (events batch supply bg 0 (u ++ a :: v)) = some y)
    {id : Queue.Id} (h1 : id ∈ eventIds (x.2 ++ [.op o])) (h2 : id ∈ eventIds y.2) :
    ∀ a ∈ v, ¬ deletes q a := by
  refine delete_event (same_life h.tasks h.ids hs ha hok (era_to_life hx) (era_to_life hy) (id := id) ?_ ?_).2.2
  · rw [← Queue.pushIds_opsOf, Queue.opsOf_append] at h1; exact h1
  · rw [← Queue.pushIds_opsOf] at h2; exact h2

/-- The history of a queue that is not deleted continues. -/
theorem era_on (ht : QTasks bg) {q : Str} {u v : List (Act I)} {a : Act I} {o : Op} {x : Config × List Event} {k : Nat}
    (ha : eventOf batch supply bg (u.countP isPush) a = some (.op q o)) (hok : o.ok) (hk : k = u.countP isPush + if isPush a then 1 else 0)
    (hx : era cfg q (events batch supply bg 0 u) = some x) (hd : ∀ a ∈ v, ¬ deletes q a) :
    era cfg q (events batch supply bg 0 (u ++ a :: v)) = some (x.1, x.2 ++ .op o :: evsOn q (events batch supply bg k v)) := by
  have he : events batch supply bg 0 (u ++ a :: v) = events batch supply bg 0 u ++ ([.op q o] ++ events batch supply bg k v) := by
    rw [events_append, Nat.zero_add]
    simp only [events, ha, hk]; rfl
  rw [he, Queue.era_append, hx, Queue.era_stays _ (by
    intro hm
    rcases List.mem_append.1 hm with hm | hm
    · simp at hm
    · exact event_delete ht hd hm), Queue.evsOn_append]
  have : evsOn q [MEvent.op q o] = [.op o] := by simp [evsOn, hok]
  rw [this]; simp

theorem crash_event {made : Nat} {v : List (Act I)} {q : Str} {now : Nat} (h : .restart now ∈ evsOn q (events batch supply bg made v)) :
    ∃ a ∈ v, crashesAt bg now a := by
  have hm := Queue.restart_evsOn h
  obtain ⟨h1, h2, hs⟩ := List.append_of_mem hm
  obtain ⟨u, a, w, e1, _, e3, _⟩ := events_split batch supply bg hs
  refine ⟨a, by rw [e1]; simp, ?_⟩
  cases a with
  | ticked x => exact ⟨x, rfl, e3⟩
  | did l cmd t r => cases cmd <;> simp [eventOf, queueCall] at e3

/-- Where an event in the history of a queue comes from. -/
theorem evs_split (ht : QTasks bg) {made : Nat} {v : List (Act I)} {q : Str} {E₁ E₂ : List Event} {o : Op}
    (h : evsOn q (events batch supply bg made v) = E₁ ++ .op o :: E₂) :
    ∃ v₁ a v₂, v = v₁ ++ a :: v₂ ∧ evsOn q (events batch supply bg made v₁) = E₁ ∧
      eventOf batch supply bg (made + v₁.countP isPush) a = some (.op q o) ∧ o.ok := by
  have _ := ht
  obtain ⟨h1, me, h2, e1, e2, e3, rfl, e5⟩ := Queue.evsOn_split h
  obtain ⟨v1, a, v2, f1, f2, f3, f4⟩ := events_split batch supply bg e1
  exact ⟨v1, a, v2, f1, by rw [f2, e2], f3, e5⟩

/-- Acts that do not concern a message do not disturb it. -/
theorem Stormy.undisturbed (h : Stormy cfg batch supply bg A) {q : Str} {u v w : List (Act I)} {a : Act I} {o : Op} {x : Config × List Event} {k : Nat}
    (hs : A = u ++ a :: v ++ w) (ha : eventOf batch supply bg (u.countP isPush) a = some (.op q o)) (hok : o.ok)
    (hk : k = u.countP isPush + if isPush a then 1 else 0)
    (hx : era cfg q (events batch supply bg 0 u) = some x) {id : Queue.Id} (hd : ∀ a ∈ v, ¬ deletes q a)
    (hh : ∀ a ∈ v, ¬ handsOut q (uuidBytes id) a) (hst : ∀ a ∈ v, ¬ settles q (uuidBytes id) a) :
    Queue.Undisturbed id x.1 (x.2 ++ [.op o]) (evsOn q (events batch supply bg k v)) := by
  intro E1 o' E2 hE
  obtain ⟨v1, b, v2, hv, g1, he, f4⟩ := evs_split h.tasks hE
  have fits : ∀ l' cmd now r, b = .did l' cmd now r → isQueue cmd = true → cmd.Fits := by
    intro l' cmd now r hb hq
    exact (h.exec (u ++ a :: v1) l' cmd now r (v2 ++ w) (by rw [hs, hv, hb]; simp) hq).2.1
  have hera := era_on (cfg := cfg) h.tasks ha hok hk hx (v := v1) (fun a ha => hd a (by rw [hv]; simp [ha]))
  rw [g1] at hera
  have hlist : x.2 ++ .op o :: E1 = x.2 ++ [.op o] ++ E1 := by simp
  rw [hlist] at hera
  rcases event_of_op h.tasks he with ⟨l2, opts2, pl3, now2, r2, rfl, rfl⟩ | ⟨l2, opts2, now2, r2, rfl, rfl⟩ | ⟨l2, i2, now2, r2, rfl, rfl⟩ |
    ⟨l2, i2, reason2, now2, r2, rfl, rfl⟩ | ⟨_, _, _, _, _, rfl⟩ | ho
  · exact ⟨by simp, by simp, by simp [Queue.step, Queue.Out.delivered]⟩
  · refine ⟨by simp, by simp, ?_⟩
    intro e2
    rcases h.consume (u := u ++ a :: v1) (l := l2) (now := now2) (q := q) (opts := opts2) (r := r2) (w := v2 ++ w)
      (by rw [hs, hv]; simp) with ⟨_, k⟩ | ⟨y, msgs, k1, k2, k3, k4⟩
    · rcases k with k | k
      · rw [hera] at k; cases k
      · exact k.1 f4
    · rw [hera] at k1
      injection k1 with k1
      subst k1
      rw [k3] at e2
      refine hh _ (by rw [hv]; simp) ⟨l2, opts2, now2, r2, rfl, ?_⟩
      rw [handed_ids k4]
      obtain ⟨m, hm, hmi⟩ := List.mem_map.1 e2
      exact List.mem_map.2 ⟨m, hm, by rw [← hmi]⟩
  · refine ⟨?_, by simp, by rw [ack_quiet]; simp⟩
    intro he2
    injection he2 with o1
    have hl : i2.length = 16 := (fits _ _ _ _ rfl rfl).1
    refine hst (.did l2 (.qAck i2 q) now2 r2) (by rw [hv]; simp) (.inl ⟨l2, now2, r2, ?_⟩)
    rw [← o1, val_uuid hl]
  · refine ⟨by simp, ?_, by rw [nack_quiet]; simp⟩
    intro rs t he2
    injection he2 with o1
    have hl : i2.length = 16 := (fits _ _ _ _ rfl rfl).1
    refine hst (.did l2 (.qNack i2 q reason2) now2 r2) (by rw [hv]; simp) (.inr ⟨l2, reason2, now2, r2, ?_⟩)
    rw [← o1, val_uuid hl]
  · exact ⟨by simp, by simp, by rw [tick_quiet]; simp⟩
  · exact ⟨fun e => ho.2.2.1 _ e, fun rs t e => ho.2.2.2.1 _ _ _ e, by rw [ho.2.1]; simp⟩

/-- What has not been written of a queue. -/
theorem Stormy.stored (h : Stormy cfg batch supply bg A) {q : Str} {x : Config × List Event} (hx : era cfg q (events batch supply bg 0 A) = some x)
    {made : Nat} {i : Bytes} (hs : Stored ⟨(Mgr.new.run cfg (events batch supply bg 0 A)).1, made⟩ q i) :
    ∀ op ∈ (eraSys x).pending, Queue.touches (beVal i) op = false := hs _ (h.live hx)

/-- A message that was written and that nobody got is there, whatever crashes. -/
theorem Stormy.rests (h : Stormy cfg batch supply bg A) {u v₁ v₂ w : List (Act I)} {l t made : Nat} {q : Str} {opts : PushOpts} {pl : Bytes}
    (hs : A = u ++ .did l (.qPush q opts pl) t (some .ok) :: (v₁ ++ v₂) ++ w) (hd : ∀ a ∈ v₁ ++ v₂, ¬ deletes q a)
    (hh : ∀ a ∈ v₁ ++ v₂, ¬ handsOut q (pushedId supply u) a) (hst : ∀ a ∈ v₁ ++ v₂, ¬ settles q (pushedId supply u) a)
    (hc : ∀ a ∈ v₁, ¬ crashes bg a)
    (hw : Stored ⟨(Mgr.new.run cfg (events batch supply bg 0 (u ++ .did l (.qPush q opts pl) t (some .ok) :: v₁))).1, made⟩ q (pushedId supply u)) :
    ∃ y, era cfg q (events batch supply bg 0 (u ++ .did l (.qPush q opts pl) t (some .ok) :: (v₁ ++ v₂))) = some y ∧
      Op.push (supply (u.countP isPush)) pl (opts.priority.getD 0) t ∈ opsOf y.2 ∧ Queue.Rests (eraSys y) (supply (u.countP isPush)) := by
  have hs1 : A = u ++ .did l (.qPush q opts pl) t (some .ok) :: (v₁ ++ v₂ ++ w) := by rw [hs]; simp
  have ha := h.answer hs1 (q := q) (o := .push (supply (u.countP isPush)) pl (opts.priority.getD 0) t) rfl
  have hsm := h.small hs1
  cases hx : era cfg q (events batch supply bg 0 u) with
  | none => rw [hx] at ha; simp [queueAnswer, Queue.missing] at ha
  | some x =>
    have hev : eventOf batch supply bg (u.countP isPush) (Act.did l (.qPush q opts pl) t (some .ok)) =
      some (.op q (.push (supply (u.countP isPush)) pl (opts.priority.getD 0) t)) := rfl
    have hk : u.countP isPush + 1 = u.countP isPush + if isPush (Act.did l (.qPush q opts pl) t (some .ok) : Act I) then 1 else 0 := rfl
    have hy := era_on (cfg := cfg) h.tasks hev trivial hk hx (v := v₁ ++ v₂) hd
    have hy1 := era_on (cfg := cfg) h.tasks hev trivial hk hx (v := v₁) (fun a ha => hd a (List.mem_append_left _ ha))
    have hstY : Stormy cfg batch supply bg (u ++ .did l (.qPush q opts pl) t (some .ok) :: (v₁ ++ v₂)) := by subst hs; exact h.left
    have hst1 : Stormy cfg batch supply bg (u ++ .did l (.qPush q opts pl) t (some .ok) :: v₁) := by
      have : u ++ Act.did l (.qPush q opts pl) t (some .ok) :: (v₁ ++ v₂) = (u ++ .did l (.qPush q opts pl) t (some .ok) :: v₁) ++ v₂ := by simp
      rw [this] at hstY
      exact hstY.left
    have hvY := hstY.fresh hy
    have hund := h.undisturbed hs hev trivial hk hx (id := supply (u.countP isPush)) hd hh hst
    have hsplit : evsOn q (events batch supply bg (u.countP isPush + 1) (v₁ ++ v₂)) =
        evsOn q (events batch supply bg (u.countP isPush + 1) v₁) ++ evsOn q (events batch supply bg (u.countP isPush + 1 + v₁.countP isPush) v₂) := by
      rw [events_append, Queue.evsOn_append]
    rw [hsplit] at hy hund hvY
    have hstored := hst1.stored hy1 hw
    have hval : beVal (pushedId supply u) = supply (u.countP isPush) := uuid_val hsm
    rw [hval] at hstored
    have hnore : ∀ now, Event.restart now ∉ evsOn q (events batch supply bg (u.countP isPush + 1) v₁) := by
      intro now hm
      obtain ⟨a, ha, hca⟩ := crash_event hm
      exact hc a ha ⟨now, hca⟩
    generalize evsOn q (events batch supply bg (u.countP isPush + 1) v₁) = E₁ at *
    generalize evsOn q (events batch supply bg (u.countP isPush + 1 + v₁.countP isPush) v₂) = E₂ at *
    have e1 : x.2 ++ Event.op (.push (supply (u.countP isPush)) pl (opts.priority.getD 0) t) :: (E₁ ++ E₂) =
        x.2 ++ [.op (.push (supply (u.countP isPush)) pl (opts.priority.getD 0) t)] ++ E₁ ++ E₂ := by simp
    have e2 : x.2 ++ Event.op (.push (supply (u.countP isPush)) pl (opts.priority.getD 0) t) :: E₁ =
        x.2 ++ [.op (.push (supply (u.countP isPush)) pl (opts.priority.getD 0) t)] ++ E₁ := by simp
    simp only [e1] at hy hvY
    rw [e2] at hstored
    refine ⟨_, hy, ?_, ?_⟩
    · rw [Queue.opsOf_append, Queue.opsOf_append, Queue.opsOf_append]; simp [opsOf]
    · refine Queue.rests_run E₂ hvY hund.right ?_
      obtain ⟨a0, hR0⟩ := (Queue.sysInv x.1 hvY.left.left.left).q
      have hnew : supply (u.countP isPush) ∉ eventIds x.2 := hvY.left.left.right.2 _ (by simp [eventIds, Op.pushId])
      have h0 : Queue.Unserved (eraSys (x.1, x.2 ++ [.op (.push (supply (u.countP isPush)) pl (opts.priority.getD 0) t)])).q (supply (u.countP isPush)) := by
        rw [Queue.eraSys_snoc]
        exact Queue.Unserved.push hR0 pl (opts.priority.getD 0) t hnew
      exact Queue.Rests.written (Queue.sysInv x.1 hvY.left) (Queue.unserved_run E₁ hvY.left hnore hund.left h0) hstored

/-- A message that was written and that nobody got is handed out as soon as there is room for it, whatever crashes. -/
theorem Stormy.no_loss (h : Stormy cfg batch supply bg A) {u v₁ v₂ w : List (Act I)} {l t l' now made : Nat} {q : Str} {opts : PushOpts} {pl : Bytes}
    {opts' : ConsumeOpts} {r : Option Response}
    (hs : A = u ++ .did l (.qPush q opts pl) t (some .ok) :: (v₁ ++ v₂) ++ .did l' (.qConsume q opts') now r :: w) (hd : ∀ a ∈ v₁ ++ v₂, ¬ deletes q a)
    (hh : ∀ a ∈ v₁ ++ v₂, ¬ handsOut q (pushedId supply u) a) (hst : ∀ a ∈ v₁ ++ v₂, ¬ settles q (pushedId supply u) a)
    (hc : ∀ a ∈ v₁, ¬ crashes bg a)
    (hw : Stored ⟨(Mgr.new.run cfg (events batch supply bg 0 (u ++ .did l (.qPush q opts pl) t (some .ok) :: v₁))).1, made⟩ q (pushedId supply u))
    (hr : r ≠ none) (hn : (handed r).length < opts'.batchSize.getD batch) : (pushedId supply u, pl) ∈ handed r := by
  obtain ⟨y, y1, y2, y3⟩ := h.rests hs hd hh hst hc hw
  have hstY : Stormy cfg batch supply bg (u ++ .did l (.qPush q opts pl) t (some .ok) :: (v₁ ++ v₂)) := by subst hs; exact h.left
  rcases h.consume hs with ⟨_, k⟩ | ⟨x, msgs, k1, k2, k3, k4⟩
  · rcases k with k | k
    · rw [y1] at k; cases k
    · exact absurd k.2 hr
  · rw [y1] at k1
    injection k1 with k1
    subst k1
    have hv := hstY.fresh y1
    obtain ⟨a, ha⟩ := (Queue.sysInv y.1 hv).q
    have ha' : Queue.RQ (eraSys y).q a (· ∈ eventIds y.2) := ha
    obtain ⟨s1, s2, s3⟩ := ha'.stepU (op := .consume (opts'.batchSize.getD batch) now) k2 (by simp [Op.pushId])
    rw [k3] at s3
    have e : (Queue.sstep (eraSys y).q.cfg a (.consume (opts'.batchSize.getD batch) now)).2.delivered =
        (a.ready.take (opts'.batchSize.getD batch)).map (·.id) := by
      simp only [Queue.sstep, Op.req, Spec.Queue.step, Spec.Queue.Ans.delivered]
      rw [(Spec.Queue.serveN_eq _ _ _).1, List.map_map]; rfl
    rw [e] at s3
    have s4 : msgs.map (·.id) = (a.ready.take (opts'.batchSize.getD batch)).map (·.id) := s3
    have hlen : msgs.length = min (opts'.batchSize.getD batch) a.ready.length := by
      have := congrArg List.length s4
      simpa using this
    rw [k4, List.length_map] at hn
    rw [List.take_of_length_le (by omega)] at s4
    obtain ⟨z, hz, hzi, _⟩ := y3.now.ready ha'
    have hm : supply (u.countP isPush) ∈ msgs.map (·.id) := by
      rw [s4, ← hzi]; exact List.mem_map.2 ⟨z, hz, rfl⟩
    obtain ⟨m, hm, hmi⟩ := List.mem_map.1 hm
    have hm2 := (Queue.era_pushed (c := y.1) (es := y.2) hv k2 k3).2 m hm
    rw [k4]
    refine List.mem_map.2 ⟨m, hm, ?_⟩
    have hmi' : m.id = supply (u.countP isPush) := hmi
    rw [hmi'] at hm2 ⊢
    rw [push_unique (by rw [Queue.pushIds_opsOf]; exact hv.2) hm2 y2]; rfl

/-- A message whose acknowledgement was written is not handed out again, whatever crashes. -/
theorem Stormy.ack_final (h : Stormy cfg batch supply bg A) {u v₁ v₂ w : List (Act I)} {l l' t now made : Nat} {q : Str} {opts : ConsumeOpts}
    {r : Option Response} {i : Bytes} (hs : A = u ++ .did l (.qAck i q) t (some .ok) :: (v₁ ++ v₂) ++ .did l' (.qConsume q opts) now r :: w)
    (hc : ∀ a ∈ v₁, ¬ crashes bg a)
    (hw : Stored ⟨(Mgr.new.run cfg (events batch supply bg 0 (u ++ .did l (.qAck i q) t (some .ok) :: v₁))).1, made⟩ q i) : i ∉ handedIds r := by
  intro hi
  have hs1 : A = u ++ .did l (.qAck i q) t (some .ok) :: (v₁ ++ v₂ ++ .did l' (.qConsume q opts) now r :: w) := by rw [hs]; simp
  obtain ⟨y, y1, y2, y3, _, y5, y6⟩ := h.handed_id hs hi
  have ha := h.answer hs1 (q := q) (o := .ack (beVal i)) rfl
  cases hx : era cfg q (events batch supply bg 0 u) with
  | none => rw [hx] at ha; simp [queueAnswer, Queue.missing] at ha
  | some x =>
    rw [hx] at ha
    have hb : (Queue.step (eraSys x).q (.ack (beVal i))).2.1 = .bool true := by
      have ha' : some Response.ok = queueAnswer (.qAck i q) (.out (.bool ((eraSys x).q.state.ack (beVal i)).1)) := ha
      show Queue.Out.bool ((eraSys x).q.state.ack (beVal i)).1 = .bool true
      cases hz : ((eraSys x).q.state.ack (beVal i)).1 with
      | true => rfl
      | false => rw [hz] at ha'; simp [queueAnswer] at ha'
    have hstU : Stormy cfg batch supply bg u := by subst hs1; exact h.left
    have hvx := hstU.fresh hx
    obtain ⟨a, hR⟩ := (Queue.sysInv x.1 hvx).q
    have hR' : Queue.RQ (eraSys x).q a (· ∈ eventIds x.2) := hR
    have hu := (Queue.ack_gone hR' hb).2
    have hev : eventOf batch supply bg (u.countP isPush) (Act.did l (.qAck i q) t (some .ok)) = some (.op q (.ack (beVal i))) := rfl
    have hd := h.same hs hev trivial hx y1 (id := beVal i) (by rw [Queue.eventIds_append]; exact List.mem_append_left _ hu) y5
    have hk : u.countP isPush = u.countP isPush + if isPush (Act.did l (.qAck i q) t (some .ok) : Act I) then 1 else 0 := rfl
    have hy := era_on (cfg := cfg) h.tasks hev trivial hk hx (v := v₁ ++ v₂) hd
    have hy1 := era_on (cfg := cfg) h.tasks hev trivial hk hx (v := v₁) (fun a ha => hd a (List.mem_append_left _ ha))
    have hst1 : Stormy cfg batch supply bg (u ++ .did l (.qAck i q) t (some .ok) :: v₁) := by
      have : A = (u ++ .did l (.qAck i q) t (some .ok) :: v₁) ++ (v₂ ++ .did l' (.qConsume q opts) now r :: w) := by rw [hs]; simp
      subst this; exact h.left
    have hstored := hst1.stored hy1 hw
    rw [hy] at y1
    injection y1 with y1
    subst y1
    have hsplit : evsOn q (events batch supply bg (u.countP isPush) (v₁ ++ v₂)) =
        evsOn q (events batch supply bg (u.countP isPush) v₁) ++ evsOn q (events batch supply bg (u.countP isPush + v₁.countP isPush) v₂) := by
      rw [events_append, Queue.evsOn_append]
    have hnore : ∀ now, Event.restart now ∉ evsOn q (events batch supply bg (u.countP isPush) v₁) := by
      intro now hm
      obtain ⟨a, ha, hca⟩ := crash_event hm
      exact hc a ha ⟨now, hca⟩
    rw [hsplit] at y3 y6
    generalize evsOn q (events batch supply bg (u.countP isPush) v₁) = E₁ at *
    generalize evsOn q (events batch supply bg (u.countP isPush + v₁.countP isPush) v₂) = E₂ at *
    have e1 : x.2 ++ Event.op (.ack (beVal i)) :: (E₁ ++ E₂) = x.2 ++ [.op (.ack (beVal i))] ++ E₁ ++ E₂ := by simp
    have e2 : x.2 ++ Event.op (.ack (beVal i)) :: E₁ = x.2 ++ [.op (.ack (beVal i))] ++ E₁ := by simp
    simp only [e1] at y3 y6
    rw [e2] at hstored
    have hg : Queue.place (eraSys (x.1, x.2 ++ [.op (.ack (beVal i))])).q (beVal i) = .gone := by
      rw [Queue.eraSys_snoc]
      obtain ⟨s1, _, _⟩ := hR'.stepU (op := .ack (beVal i)) trivial (by simp [Op.pushId])
      exact (Queue.place_gone s1 _).2 (Queue.ack_gone hR' hb).1
    have hidx : beVal i ∈ eventIds (x.2 ++ [.op (.ack (beVal i))]) := by rw [Queue.eventIds_append]; exact List.mem_append_left _ hu
    have hg1 := Queue.place_gone_run E₁ y3.left hnore hidx hg
    have hE1 := Queue.Erased.written (Queue.sysInv x.1 y3.left) hg1 hstored
    have hE2 := Queue.erased_run E₂ y3 (by rw [Queue.eventIds_append]; exact List.mem_append_left _ hidx) hE1
    obtain ⟨a2, ha2⟩ := (Queue.sysInv x.1 y3).q
    exact (Queue.gone_step ha2 hE2.now (by rw [Queue.eventIds_append, Queue.eventIds_append]; exact List.mem_append_left _ (List.mem_append_left _ hidx)) y2 (by simp [Op.pushId])).2 y6

/-- A queue is there if and only if it was created and not deleted since, whatever crashes. -/
theorem Stormy.exists (h : Stormy cfg batch supply bg A) {u w : List (Act I)} {l now : Nat} {q : Str} {r : Option Response}
    (hs : A = u ++ .did l (.qExists q) now r :: w) :
    r = some .ok ↔ ∃ u₁ l' opts t r' u₂, u = u₁ ++ .did l' (.qCreate q opts) t r' :: u₂ ∧ ∀ a ∈ u₂, ¬ deletes q a := by
  have h1 := (h.exec u l _ now r w hs rfl).1
  have hst : Stormy cfg batch supply bg u := by subst hs; exact h.left
  obtain ⟨g1, g3⟩ := Queue.era_agrees cfg q hst.names
  simp only [queueExec, queueCall] at h1
  rw [(Queue.Agrees.step g3 cfg g1 (.exist q) (by simp [Queue.MEvent.about, Queue.MEvent.target]) (by simp [Queue.PlainNames])).2] at h1
  simp only [Queue.loneStep] at h1
  have key : r = some .ok ↔ ∃ x, era cfg q (events batch supply bg 0 u) = some x := by
    rw [h1]
    cases era cfg q (events batch supply bg 0 u) with
    | none => simp [queueAnswer]
    | some x => simp [queueAnswer]
  rw [key]
  constructor
  · rintro ⟨x, hx⟩
    obtain ⟨u1, l', opts, t, r', u2, e1, _, _, e4⟩ := life_acts h.tasks (era_to_life hx)
    exact ⟨u1, l', opts, t, r', u2, e1, delete_event e4⟩
  · rintro ⟨u1, l', opts, t, r', u2, e1, e2⟩
    have he : events batch supply bg 0 u = events batch supply bg 0 u1 ++
        .create q opts.visibilityTimeoutMs opts.maxRetries t :: events batch supply bg (u1.countP isPush) u2 := by
      rw [e1, events_append, Nat.zero_add]; rfl
    rw [he, Queue.era_append, List.foldl_cons]
    have : ∃ z, Queue.eraStep cfg q (era cfg q (events batch supply bg 0 u1)) (.create q opts.visibilityTimeoutMs opts.maxRetries t) = some z := by
      cases era cfg q (events batch supply bg 0 u1) <;> simp [Queue.eraStep]
    obtain ⟨z, hz⟩ := this
    rw [hz, Queue.era_stays _ (event_delete h.tasks e2)]
    exact ⟨_, rfl⟩

/-- A message that was handed out, with that written, is handed out again only after it was refused or its timeout elapsed, whatever crashes. -/
theorem Stormy.exclusive (h : Stormy cfg batch supply bg A) {u v₁ v₂ w : List (Act I)} {l l' now now' vt made : Nat} {q : Str} {opts opts' : ConsumeOpts}
    {r r' : Option Response} {i : Bytes}
    (hs : A = u ++ .did l (.qConsume q opts) now r :: (v₁ ++ v₂) ++ .did l' (.qConsume q opts') now' r' :: w) (hi : i ∈ handedIds r) (hi' : i ∈ handedIds r')
    (hc : ∀ a ∈ v₁, ¬ crashes bg a)
    (hw : Stored ⟨(Mgr.new.run cfg (events batch supply bg 0 (u ++ .did l (.qConsume q opts) now r :: v₁))).1, made⟩ q i)
    (hvt : ∀ l o t r, Act.did l (.qCreate q o) t r ∈ u → vt ≤ o.visibilityTimeoutMs.getD cfg.visibilityTimeout) :
    ∃ a ∈ v₁ ++ v₂, (∃ l reason t r, a = .did l (.qNack i q reason) t r) ∨ timeoutFrom bg q (now + vt) a ∨ ∃ t, now + vt ≤ t ∧ crashesAt bg t a := by
  have hs1 : A = u ++ .did l (.qConsume q opts) now r :: (v₁ ++ v₂ ++ .did l' (.qConsume q opts') now' r' :: w) := by rw [hs]; simp
  obtain ⟨x, x1, x2, x3, x4, x5, x6⟩ := h.handed_id hs1 hi
  obtain ⟨y, y1, y2, y3, _, y5, y6⟩ := h.handed_id hs hi'
  have hev : eventOf batch supply bg (u.countP isPush) (Act.did l (.qConsume q opts) now r) = some (.op q (.consume (opts.batchSize.getD batch) now)) := rfl
  have hd := h.same hs hev x2 x1 y1 (id := beVal i) (by rw [Queue.eventIds_append]; exact List.mem_append_left _ x5) y5
  apply Classical.byContradiction
  intro hno
  have hcfg : vt ≤ x.1.visibilityTimeout := by
    obtain ⟨u1, l2, o2, t2, r2, u2, e1, e2, _⟩ := life_acts h.tasks (era_to_life x1)
    simp only at e2
    rw [e2]
    exact hvt l2 o2 t2 r2 (by rw [e1]; simp)
  have hk : u.countP isPush = u.countP isPush + if isPush (Act.did l (.qConsume q opts) now r : Act I) then 1 else 0 := rfl
  have hy := era_on (cfg := cfg) h.tasks hev x2 hk x1 (v := v₁ ++ v₂) hd
  have hy1 := era_on (cfg := cfg) h.tasks hev x2 hk x1 (v := v₁) (fun a ha => hd a (List.mem_append_left _ ha))
  have hst1 : Stormy cfg batch supply bg (u ++ .did l (.qConsume q opts) now r :: v₁) := by
    have : A = (u ++ .did l (.qConsume q opts) now r :: v₁) ++ (v₂ ++ .did l' (.qConsume q opts') now' r' :: w) := by rw [hs]; simp
    subst this; exact h.left
  have hstored := hst1.stored hy1 hw
  rw [hy] at y1
  injection y1 with y1
  subst y1
  have hsplit : evsOn q (events batch supply bg (u.countP isPush) (v₁ ++ v₂)) =
      evsOn q (events batch supply bg (u.countP isPush) v₁) ++ evsOn q (events batch supply bg (u.countP isPush + v₁.countP isPush) v₂) := by
    rw [events_append, Queue.evsOn_append]
  have hnore : ∀ now, Event.restart now ∉ evsOn q (events batch supply bg (u.countP isPush) v₁) := by
    intro now hm
    obtain ⟨a, ha, hca⟩ := crash_event hm
    exact hc a ha ⟨now, hca⟩
  have hre : ∀ t, Event.restart t ∈ evsOn q (events batch supply bg (u.countP isPush) (v₁ ++ v₂)) → t < now + x.1.visibilityTimeout := by
    intro t hm
    obtain ⟨a, ha, hca⟩ := crash_event hm
    apply Classical.byContradiction
    intro hlt
    exact hno ⟨a, ha, .inr (.inr ⟨t, by omega, hca⟩)⟩
  have hrel : ∀ o, Event.op o ∈ evsOn q (events batch supply bg (u.countP isPush) (v₁ ++ v₂)) →
      ¬ Spec.Queue.releases (beVal i) (now + x.1.visibilityTimeout) o.req := by
    intro o ho hrel
    obtain ⟨E1, E2, hE⟩ := List.append_of_mem ho
    obtain ⟨w1, a, w2, ev, _, he, _⟩ := evs_split h.tasks hE
    have ha : a ∈ v₁ ++ v₂ := by rw [ev]; simp
    rcases event_of_op h.tasks he with ⟨_, _, _, _, _, _, rfl⟩ | ⟨_, _, _, _, _, rfl⟩ | ⟨_, _, _, _, _, rfl⟩ |
        ⟨l2, i2, reason2, now2, r2, rfl, rfl⟩ | ⟨z, t1, t2, rfl, hb, rfl⟩ | ho'
    · exact hrel
    · exact hrel
    · exact hrel
    · have hrel' : beVal i2 = beVal i := hrel
      have hfit := (h.exec (u ++ .did l (.qConsume q opts) now r :: w1) l2 (.qNack i2 q reason2) now2 r2
        (w2 ++ .did l' (.qConsume q opts') now' r' :: w) (by rw [hs, ev]; simp) rfl).2.1
      have hl : i2.length = 16 := hfit.1
      have : i2 = i := by rw [← val_uuid hl, hrel', ← x4]
      subst this
      exact hno ⟨_, ha, .inl ⟨l2, reason2, now2, r2, rfl⟩⟩
    · have hrel' : now + x.1.visibilityTimeout ≤ t2 := hrel
      exact hno ⟨_, ha, .inr (.inl ⟨z, t1, t2, rfl, hb, by omega⟩)⟩
    · cases o with
      | nack i2 rs t => exact ho'.2.2.2.1 _ _ _ rfl
      | tick t t' => exact ho'.2.2.2.2 _ _ rfl
      | _ => exact hrel
  rw [hsplit] at y3 y6 hrel hre
  generalize evsOn q (events batch supply bg (u.countP isPush) v₁) = E₁ at *
  generalize evsOn q (events batch supply bg (u.countP isPush + v₁.countP isPush) v₂) = E₂ at *
  generalize hC : Op.consume (opts.batchSize.getD batch) now = C at *
  have e1 : x.2 ++ Event.op C :: (E₁ ++ E₂) = x.2 ++ [.op C] ++ E₁ ++ E₂ := by simp
  have e2 : x.2 ++ Event.op C :: E₁ = x.2 ++ [.op C] ++ E₁ := by simp
  simp only [e1] at y3 y6
  rw [e2] at hstored
  obtain ⟨a, hR⟩ := (Queue.sysInv x.1 x3).q
  have hR' : Queue.RQ (eraSys x).q a (· ∈ eventIds x.2) := hR
  have hcfgx : (eraSys x).q.cfg = x.1 := Queue.Sys.run_cfg x.2 _
  have hl0 : Queue.Lent (eraSys (x.1, x.2 ++ [.op C])).q (beVal i) (now + x.1.visibilityTimeout) := by
    rw [Queue.eraSys_snoc]
    obtain ⟨s1, _, s3⟩ := hR'.stepU (op := C) x2 (by rw [← hC]; simp [Op.pushId])
    refine (Queue.Lent.iff s1).2 ?_
    rw [← hcfgx]
    refine Spec.Queue.delivered_held C.req (now := now) (.inr ⟨_, by rw [← hC]; rfl⟩) ?_
    rw [s3] at x6
    exact x6
  have hidx : beVal i ∈ eventIds (x.2 ++ [.op C]) := by rw [Queue.eventIds_append]; exact List.mem_append_left _ x5
  have hl1 := Queue.lent_run E₁ y3.left hnore hidx (fun o ho => hrel o (List.mem_append_left _ ho)) hl0
  have hE1 := Queue.Loan.written (Queue.sysInv x.1 y3.left) (Queue.regI x.1 _ y3.left) hl1 hstored
  have hE2 := Queue.loan_run E₂ y3 (fun t ht => hre t (List.mem_append_right _ ht)) (by rw [Queue.eventIds_append]; exact List.mem_append_left _ hidx)
    (fun o ho => hrel o (List.mem_append_right _ ho)) hE1
  obtain ⟨a2, ha2⟩ := (Queue.sysInv x.1 y3).q
  exact (hE2.now.step ha2 (by rw [Queue.eventIds_append, Queue.eventIds_append]; exact List.mem_append_left _ (List.mem_append_left _ hidx)) y2 (by simp [Op.pushId])
    (by simp [Op.req, Spec.Queue.releases])).2 y6

end Verif.Rpc
