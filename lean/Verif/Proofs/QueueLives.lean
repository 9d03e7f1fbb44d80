import Verif.Proofs.QueueManager
import Verif.Proofs.QueueFifo

/-!
# The life of one queue in a history of the manager without restarts
-/

namespace Verif.Queue

/-- The configuration with which queue `n` was created and the requests on it since then (leaving out those whose batch cannot be
allocated, which do nothing); `none` if there is no such queue. -/
def lifeStep (dflt : Config) (n : Str) (s : Option (Config × List Op)) : MEvent → Option (Config × List Op)
  | .create m vt mr _ => if m = n then (match s with | some x => some x | none => some (Config.fromOptions vt mr dflt, [])) else s
  | .delete m => if m = n then none else s
  | .op m o => if m = n ∧ o.ok then s.map (fun x => (x.1, x.2 ++ [o])) else s
  | _ => s

def life (dflt : Config) (n : Str) (h : List MEvent) : Option (Config × List Op) := h.foldl (lifeStep dflt n) none

/-- The requests on queue `n`, likewise. -/
def opsOn (n : Str) (h : List MEvent) : List Op :=
  h.filterMap (fun e => match e with | .op m o => if m = n ∧ o.ok then some o else none | _ => none)

theorem opsOn_append (n : Str) (a b : List MEvent) : opsOn n (a ++ b) = opsOn n a ++ opsOn n b := List.filterMap_append

theorem mem_opsOn {n : Str} {h : List MEvent} {o : Op} : o ∈ opsOn n h ↔ .op n o ∈ h ∧ o.ok := by
  simp only [opsOn, List.mem_filterMap]
  constructor
  · rintro ⟨e, he, hx⟩
    cases e with
    | op m o' =>
      simp only at hx
      split at hx
      · next hc => injection hx with hx; subst hx; rw [← hc.1]; exact ⟨he, hc.2⟩
      · cases hx
    | _ => cases hx
  · rintro ⟨he, hok⟩
    exact ⟨_, he, by simp [hok]⟩

theorem step_not_ok {q : QInner} {o : Op} (h : ¬ o.ok) : (step q o).1 = q := by
  cases o with
  | consume max now =>
    have : max * msgSize > isizeMax := Nat.lt_of_not_le h
    simp [step, this]
  | _ => exact absurd trivial h

theorem run_append_fst (a : List Op) : ∀ (q : QInner) (b : List Op), (run q (a ++ b)).1 = (run (run q a).1 b).1 := by
  induction a with
  | nil => intro q b; rfl
  | cons o a ih => intro q b; simp only [List.cons_append, run]; exact ih _ _

theorem run_append_snd (a : List Op) : ∀ (q : QInner) (b : List Op), (run q (a ++ b)).2 = (run q a).2 ++ (run (run q a).1 b).2 := by
  induction a with
  | nil => intro q b; rfl
  | cons o a ih => intro q b; simp only [List.cons_append, run]; rw [ih]

theorem pushIds_append (a b : List Op) : pushIds (a ++ b) = pushIds a ++ pushIds b := by
  induction a with
  | nil => rfl
  | cons o a ih => rw [List.cons_append, pushIds_cons, pushIds_cons, ih, List.append_assoc]

theorem mem_pushIds {ops : List Op} {id : Id} : id ∈ pushIds ops ↔ ∃ pl pr t, Op.push id pl pr t ∈ ops := by
  induction ops with
  | nil => simp [pushIds]
  | cons o t ih =>
    rw [pushIds_cons, List.mem_append, ih]
    constructor
    · rintro (h | ⟨pl, pr, t', h⟩)
      · cases o <;> simp only [Op.pushId, List.not_mem_nil, List.mem_singleton] at h
        subst h; exact ⟨_, _, _, List.mem_cons_self ..⟩
      · exact ⟨pl, pr, t', List.mem_cons_of_mem _ h⟩
    · rintro ⟨pl, pr, t', h⟩
      rcases List.mem_cons.1 h with h | h
      · subst h; exact .inl (by simp [Op.pushId])
      · exact .inr ⟨pl, pr, t', h⟩

theorem mem_pushed {ops : List Op} {c : Spec.Queue.Core} : c ∈ pushed ops ↔ Op.push c.1 c.2.1 c.2.2.1 c.2.2.2 ∈ ops := by
  induction ops with
  | nil => simp [pushed]
  | cons o t ih =>
    obtain ⟨i, pl, pr, tm⟩ := c
    cases o with
    | push i' pl' pr' tm' =>
      simp only [pushed, List.mem_cons, ih, Prod.mk.injEq, Op.push.injEq]
    | _ => simp only [pushed, ih, List.mem_cons, reduceCtorEq, false_or]

/-- Neither queue `n` nor its files are there, or the queue is there with the effects of its life. -/
def Lives (s : Mgr) (n : Str) (x : Option (Config × List Op)) : Prop :=
  (mget s.live n).map (·.q) = x.map (fun x => (run (QInner.empty x.1) x.2).1) ∧ (mget s.live n = none → mget s.dbs (dbFile n) = none)

theorem Lives.step {dflt : Config} {s : Mgr} {n : Str} {x : Option (Config × List Op)} (h : Lives s n x) {e : MEvent}
    (he : ∀ now, e ≠ .restart now) : Lives (s.step dflt e).1 n (lifeStep dflt n x e) := by
  obtain ⟨h1, h2⟩ := h
  have hsome : ∀ l, mget s.live n = some l → ∃ c ops, x = some (c, ops) ∧ l.q = (run (QInner.empty c) ops).1 := by
    intro l hl
    rw [hl] at h1
    cases x with
    | none => cases h1
    | some x => exact ⟨x.1, x.2, rfl, by simpa using h1⟩
  have hnone : mget s.live n = none → x = none := by
    intro hl
    rw [hl] at h1
    cases x with
    | none => rfl
    | some x => cases h1
  cases e with
  | restart now => exact absurd rfl (he now)
  | exist m => exact ⟨h1, h2⟩
  | create m vt mr now =>
    simp only [Mgr.step, lifeStep]
    by_cases hm : m = n
    · subst hm
      rw [if_pos rfl]
      cases hl : mget s.live m with
      | some l =>
        obtain ⟨c, ops, rfl, hq⟩ := hsome l hl
        exact ⟨by rw [hl]; simp [hq], h2⟩
      | none =>
        rw [hnone hl]
        simp only [Mgr.build, Lives, mget_mset_same, Option.map_some, h2 hl, Option.getD_none]
        exact ⟨rfl, fun h => nomatch h⟩
    · rw [if_neg hm]
      cases hl : mget s.live m with
      | some l => exact ⟨h1, h2⟩
      | none =>
        simp only [Mgr.build, Lives, mget_mset_ne _ _ (Ne.symm hm), mget_put_ne _ _ (fun h => hm (dbFile_inj.1 h).symm)]
        exact ⟨h1, h2⟩
  | delete m =>
    simp only [Mgr.step, lifeStep, Lives]
    by_cases hm : m = n
    · subst hm
      rw [if_pos rfl]
      simp [mget_mdel_same]
    · rw [if_neg hm, mget_mdel_ne _ (Ne.symm hm), mget_mdel_ne _ (fun h => hm (dbFile_inj.1 h).symm)]
      exact ⟨h1, h2⟩
  | op m o =>
    simp only [Mgr.step, lifeStep]
    by_cases hm : m = n
    · subst hm
      cases hl : mget s.live m with
      | none =>
        rw [hnone hl]
        refine ⟨?_, h2⟩
        rw [hl]; split <;> rfl
      | some l =>
        obtain ⟨c, ops, rfl, hq⟩ := hsome l hl
        simp only [Lives, mget_mset_same, Option.map_some]
        refine ⟨?_, fun h => nomatch h⟩
        by_cases hok : o.ok
        · rw [if_pos (by simp [hok]), hq]
          simp only [Option.map_some, run_append_fst, run]
        · rw [if_neg (by simp [hok]), step_not_ok hok, hq]; rfl
    · rw [if_neg (fun h => hm h.1)]
      cases hl : mget s.live m with
      | none => exact ⟨h1, h2⟩
      | some l =>
        simp only [Lives, mget_mset_ne _ _ (Ne.symm hm)]
        exact ⟨h1, h2⟩
  | commit m k =>
    simp only [Mgr.step, lifeStep]
    by_cases hm : m = n
    · subst hm
      cases hl : mget s.live m with
      | none => exact ⟨h1, h2⟩
      | some l =>
        simp only [Lives, mget_mset_same, Option.map_some]
        exact ⟨by rw [hl] at h1; exact h1, fun h => nomatch h⟩
    · cases hl : mget s.live m with
      | none => exact ⟨h1, h2⟩
      | some l =>
        simp only [Lives, mget_mset_ne _ _ (Ne.symm hm), mget_put_ne _ _ (fun h => hm (dbFile_inj.1 h).symm)]
        exact ⟨h1, h2⟩

theorem Mgr.run_append (dflt : Config) (a : List MEvent) : ∀ (s : Mgr) (b : List MEvent),
    (s.run dflt (a ++ b)).1 = ((s.run dflt a).1.run dflt b).1 := by
  induction a with
  | nil => intro s b; rfl
  | cons e a ih => intro s b; simp only [List.cons_append, Mgr.run]; exact ih _ _

/-- What is in the manager is what the lives of the queues say. -/
theorem lives_run (dflt : Config) (n : Str) (h : List MEvent) (hr : ∀ now, MEvent.restart now ∉ h) :
    Lives (Mgr.new.run dflt h).1 n (life dflt n h) := by
  have : ∀ (h : List MEvent) (s : Mgr) (x : Option (Config × List Op)), (∀ now, MEvent.restart now ∉ h) → Lives s n x →
      Lives (s.run dflt h).1 n (h.foldl (lifeStep dflt n) x) := by
    intro h
    induction h with
    | nil => intro s x _ hl; exact hl
    | cons e h ih =>
      intro s x hr hl
      exact ih _ _ (fun now hm => hr now (List.mem_cons_of_mem _ hm)) (hl.step (fun now he => hr now (he ▸ List.mem_cons_self ..)))
  exact this h _ none hr ⟨rfl, fun _ => rfl⟩

/-- The answer to a request on a queue. -/
theorem lives_answer {dflt : Config} {s : Mgr} {n : Str} {x : Option (Config × List Op)} (h : Lives s n x) (o : Op) :
    (s.step dflt (.op n o)).2 = match (generalizing := false) x with | none => missing o | some x => .out (step (run (QInner.empty x.1) x.2).1 o).2.1 := by
  obtain ⟨h1, _⟩ := h
  simp only [Mgr.step]
  cases hl : mget s.live n with
  | none =>
    rw [hl] at h1
    cases x with
    | none => rfl
    | some x => cases h1
  | some l =>
    rw [hl] at h1
    cases x with
    | none => cases h1
    | some x =>
      have : l.q = (run (QInner.empty x.1) x.2).1 := by simpa using h1
      simp only [this]

theorem life_from {dflt : Config} {n : Str} : ∀ (h : List MEvent) {s : Option (Config × List Op)} {x : Config × List Op},
    h.foldl (lifeStep dflt n) s = some x →
    (∃ y, s = some y ∧ x.1 = y.1 ∧ x.2 = y.2 ++ opsOn n h ∧ MEvent.delete n ∉ h) ∨
    ∃ h₁ vt mr t h₂, h = h₁ ++ .create n vt mr t :: h₂ ∧ x.1 = Config.fromOptions vt mr dflt ∧ x.2 = opsOn n h₂ ∧ MEvent.delete n ∉ h₂ := by
  intro h
  induction h with
  | nil => intro s x hx; exact .inl ⟨x, hx, rfl, by simp [opsOn], by simp⟩
  | cons e h ih =>
    intro s x hx
    rcases ih hx with ⟨y, hy, e1, e2, e3⟩ | ⟨h1, vt, mr, t, h2, rfl, e1, e2, e3⟩
    · cases e with
      | create m vt mr t =>
        simp only [lifeStep] at hy
        by_cases hm : m = n
        · subst hm
          rw [if_pos rfl] at hy
          cases s with
          | none =>
            injection hy with hy; subst hy
            exact .inr ⟨[], vt, mr, t, h, rfl, e1, by simpa using e2, e3⟩
          | some z =>
            injection hy with hy; subst hy
            exact .inl ⟨z, rfl, e1, by rw [e2]; rfl, by simpa using e3⟩
        · rw [if_neg hm] at hy
          exact .inl ⟨y, hy, e1, by rw [e2]; rfl, by simpa using e3⟩
      | delete m =>
        simp only [lifeStep] at hy
        by_cases hm : m = n
        · rw [if_pos hm] at hy; cases hy
        · rw [if_neg hm] at hy
          exact .inl ⟨y, hy, e1, by rw [e2]; rfl, by simp [e3, Ne.symm hm]⟩
      | op m o =>
        simp only [lifeStep] at hy
        by_cases hm : m = n ∧ o.ok
        · rw [if_pos hm] at hy
          cases s with
          | none => cases hy
          | some z =>
            injection hy with hy; subst hy
            refine .inl ⟨z, rfl, e1, ?_, by simpa using e3⟩
            rw [e2]; simp [opsOn, hm.1, hm.2]
        · rw [if_neg hm] at hy
          refine .inl ⟨y, hy, e1, ?_, by simpa using e3⟩
          rw [e2]; simp [opsOn, hm]
      | exist m => exact .inl ⟨y, hy, e1, by rw [e2]; rfl, by simpa using e3⟩
      | commit m k => exact .inl ⟨y, hy, e1, by rw [e2]; rfl, by simpa using e3⟩
      | restart now => exact .inl ⟨y, hy, e1, by rw [e2]; rfl, by simpa using e3⟩
    · exact .inr ⟨e :: h1, vt, mr, t, h2, rfl, e1, e2, e3⟩

/-- A queue's requests form a possible history. -/
theorem reachable_run (cfg : Config) {ops : List Op} (hf : Fresh [] ops) : Reachable cfg (pushIds ops) (run (QInner.empty cfg) ops).1 := by
  refine ⟨ops.map .op, ⟨?_, ?_⟩, ?_, ?_⟩
  · intro e he
    obtain ⟨o, ho, rfl⟩ := List.mem_map.1 he
    exact hf.1 o ho
  · have : ∀ l : List Op, eventIds (l.map .op) = pushIds l := by
      intro l
      induction l with
      | nil => rfl
      | cons o t ih => rw [List.map_cons, eventIds, ih, pushIds_cons]
    rw [this]; exact hf.2.1
  · have : ∀ l : List Op, eventIds (l.map .op) = pushIds l := by
      intro l
      induction l with
      | nil => rfl
      | cons o t ih => rw [List.map_cons, eventIds, ih, pushIds_cons]
    exact this ops
  · have : ∀ (l : List Op) (s : Sys), (s.run (l.map .op)).1.q = (run s.q l).1 := by
      intro l
      induction l with
      | nil => intro s; rfl
      | cons o t ih => intro s; simp only [List.map_cons, Sys.run, run]; rw [ih]; rfl
    exact this ops _

end Verif.Queue
