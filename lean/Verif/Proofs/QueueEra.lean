import Verif.Proofs.QueueLives
import Verif.Proofs.QueueE2E

/-!
# The life of one queue in a history of the manager, crashes included
-/

namespace Verif.Spec.Queue

/-- A waiting message stays where it is until it is handed out, acknowledged or refused. -/
theorem ready_stays {vt mr : Nat} {tr : Str} {q : Q} {x : Item} (hx : x ∈ q.ready) {op : Req} (hack : op ≠ .ack x.id)
    (hnack : ∀ reason t, op ≠ .nack x.id reason t) (hd : x.id ∉ (Queue.step vt mr tr q op).2.delivered) :
    x ∈ (Queue.step vt mr tr q op).1.ready := by
  have serveStays : ∀ due n, x.id ∉ (serveN due n q).1.map (·.id) → x ∈ (serveN due n q).2.ready := by
    intro due n h
    obtain ⟨e1, e2, _, _⟩ := serveN_eq due n q
    rw [e2]
    rw [e1] at h
    rw [← List.take_append_drop n q.ready] at hx
    rcases List.mem_append.1 hx with hx | hx
    · exact absurd (List.mem_map.2 ⟨x.bump, List.mem_map.2 ⟨x, hx, rfl⟩, rfl⟩) h
    · exact hx
  cases op with
  | push id pl pr t => exact mem_lineUp.2 (.inr hx)
  | pop now =>
    have h2 : (serveN (now + vt) 1 q).1 = (serve (now + vt) q).1.toList ∧ (serveN (now + vt) 1 q).2 = (serve (now + vt) q).2 := by
      unfold serveN
      cases hs : serve (now + vt) q with
      | mk o q' => cases o <;> simp [serveN]
    have := serveStays (now + vt) 1 (by rw [h2.1]; exact hd)
    rw [h2.2] at this
    exact this
  | consume max now => exact serveStays _ _ hd
  | ack id =>
    have hne : x.id ≠ id := fun e => hack (e ▸ rfl)
    exact List.mem_filter.2 ⟨hx, by simpa using hne⟩
  | nack id reason now =>
    have hne : x.id ≠ id := fun e => hnack reason now (e ▸ rfl)
    have hdrop : x ∈ dropReady id q.ready := List.mem_filter.2 ⟨hx, by simpa using hne⟩
    simp only [Queue.step, fail]
    cases lookupFlight id q with
    | some y =>
      dsimp only
      split
      · exact hdrop
      · exact mem_lineUp.2 (.inr hx)
    | none =>
      dsimp only
      cases lookupReady id q with
      | none => exact hx
      | some y =>
        dsimp only
        split
        · exact hdrop
        · exact hx
  | tick now now' =>
    simp only [Queue.step]
    split
    · exact mem_lineUp_fold.2 (.inl hx)
    · exact hx
  | peekDlq limit offset => exact hx
  | moveToQueue id =>
    simp only [Queue.step, replay]
    cases lookupDead id q with
    | none => exact hx
    | some d => exact mem_lineUp.2 (.inr hx)
  | deleteDlq id =>
    simp only [Queue.step, discard]
    cases lookupDead id q with
    | none => exact hx
    | some d => exact hx
  | purgeDlq => exact hx
  | counters => exact hx

end Verif.Spec.Queue

namespace Verif.Queue

open Spec.Queue (Q Core)

/-! ## The history of one queue -/

/-- The configuration with which queue `n` was created and what happened to it since then. -/
def eraStep (dflt : Config) (n : Str) (s : Option (Config × List Event)) : MEvent → Option (Config × List Event)
  | .create m vt mr _ => if m = n then (match s with | some x => some x | none => some (Config.fromOptions vt mr dflt, [])) else s
  | .delete m => if m = n then none else s
  | .op m o => if m = n ∧ o.ok then s.map (fun x => (x.1, x.2 ++ [.op o])) else s
  | .commit m k => if m = n then s.map (fun x => (x.1, x.2 ++ [.commit k])) else s
  | .restart now => s.map (fun x => (x.1, x.2 ++ [.restart now]))
  | .exist _ => s

def era (dflt : Config) (n : Str) (h : List MEvent) : Option (Config × List Event) := h.foldl (eraStep dflt n) none

/-- What a history has for queue `n`, while it exists. -/
def evsOn (n : Str) (h : List MEvent) : List Event :=
  h.filterMap (fun e => match e with
    | .op m o => if m = n ∧ o.ok then some (.op o) else none
    | .commit m k => if m = n then some (.commit k) else none
    | .restart now => some (.restart now)
    | _ => none)

/-- The queue at the end of its history. -/
def eraSys (x : Config × List Event) : Sys := ((Sys.new x.1).run x.2).1

theorem opsOf_append (a b : List Event) : opsOf (a ++ b) = opsOf a ++ opsOf b := by
  induction a with
  | nil => rfl
  | cons e a ih => cases e <;> simp [opsOf, ih]

theorem era_life (dflt : Config) (n : Str) (h : List MEvent) :
    (era dflt n h).map (fun x => (x.1, opsOf x.2)) = life dflt n h := by
  unfold era life
  have : ∀ (h : List MEvent) (s : Option (Config × List Event)),
      (h.foldl (eraStep dflt n) s).map (fun x => (x.1, opsOf x.2)) = h.foldl (lifeStep dflt n) (s.map (fun x => (x.1, opsOf x.2))) := by
    intro h
    induction h with
    | nil => intro s; rfl
    | cons e h ih =>
      intro s
      rw [List.foldl_cons, List.foldl_cons, ih]
      congr 1
      cases e with
      | create m vt mr t => simp only [eraStep, lifeStep]; split <;> cases s <;> rfl
      | delete m => simp only [eraStep, lifeStep]; split <;> rfl
      | op m o => simp only [eraStep, lifeStep]; split <;> cases s <;> simp [opsOf_append, opsOf]
      | commit m k => simp only [eraStep, lifeStep]; split <;> cases s <;> simp [opsOf_append, opsOf]
      | restart now => cases s <;> simp [eraStep, lifeStep, opsOf_append, opsOf]
      | exist m => rfl
  exact this h none

theorem eraSys_snoc (c : Config) (es : List Event) (e : Event) : eraSys (c, es ++ [e]) = ((eraSys (c, es)).step e).1 := by
  simp only [eraSys]; rw [Sys.run_append]; rfl

theorem Sys.step_not_ok {s : Sys} {o : Op} (h : ¬ o.ok) : (s.step (.op o)).1 = s := by
  cases o with
  | consume max now =>
    have : max * msgSize > isizeMax := Nat.lt_of_not_le h
    simp [Sys.step, Verif.Queue.step, this]
  | _ => exact absurd trivial h

/-- The lone queue has the history. -/
theorem era_lone (dflt : Config) (n : Str) (h : List MEvent) :
    (loneRun dflt none (h.filter (MEvent.about n))).1 = (era dflt n h).map eraSys := by
  have : ∀ (h : List MEvent) (s : Option (Config × List Event)),
      (loneRun dflt (s.map eraSys) (h.filter (MEvent.about n))).1 = (h.foldl (eraStep dflt n) s).map eraSys := by
    intro h
    induction h with
    | nil => intro s; rfl
    | cons e h ih =>
      intro s
      rw [List.foldl_cons, ← ih]
      cases e with
      | create m vt mr t =>
        by_cases hm : m = n
        · subst hm
          rw [List.filter_cons_of_pos (by simp [MEvent.about, MEvent.target])]
          simp only [loneRun, eraStep, if_true]
          cases s <;> rfl
        · rw [List.filter_cons_of_neg (by simp [MEvent.about, MEvent.target, hm])]
          simp only [eraStep, if_neg hm]
      | delete m =>
        by_cases hm : m = n
        · subst hm
          rw [List.filter_cons_of_pos (by simp [MEvent.about, MEvent.target])]
          simp only [loneRun, eraStep, if_true]
          rfl
        · rw [List.filter_cons_of_neg (by simp [MEvent.about, MEvent.target, hm])]
          simp only [eraStep, if_neg hm]
      | exist m =>
        by_cases hm : m = n
        · subst hm
          rw [List.filter_cons_of_pos (by simp [MEvent.about, MEvent.target])]
          rfl
        · rw [List.filter_cons_of_neg (by simp [MEvent.about, MEvent.target, hm])]
          rfl
      | op m o =>
        by_cases hm : m = n
        · subst hm
          rw [List.filter_cons_of_pos (by simp [MEvent.about, MEvent.target])]
          cases s with
          | none => simp only [loneRun, eraStep]; split <;> rfl
          | some x =>
            simp only [loneRun, eraStep, Option.map_some, loneStep, true_and]
            by_cases hok : o.ok
            · rw [if_pos hok, Option.map_some, eraSys_snoc]
            · rw [if_neg hok, Sys.step_not_ok hok]; rfl
        · rw [List.filter_cons_of_neg (by simp [MEvent.about, MEvent.target, hm])]
          simp only [eraStep, hm, false_and, if_false]
      | commit m k =>
        by_cases hm : m = n
        · subst hm
          rw [List.filter_cons_of_pos (by simp [MEvent.about, MEvent.target])]
          cases s with
          | none => simp only [loneRun, eraStep, if_true]; rfl
          | some x => simp only [loneRun, eraStep, Option.map_some, loneStep, if_true, eraSys_snoc]
        · rw [List.filter_cons_of_neg (by simp [MEvent.about, MEvent.target, hm])]
          simp only [eraStep, hm, if_false]
      | restart now =>
        rw [List.filter_cons_of_pos (by simp [MEvent.about, MEvent.target])]
        cases s with
        | none => rfl
        | some x => simp only [loneRun, eraStep, Option.map_some, loneStep, eraSys_snoc]
  exact this h none

/-- What is in the manager is what the histories of the queues say. -/
theorem era_agrees (dflt : Config) (n : Str) {h : List MEvent} (hp : PlainNames h) :
    Agrees (Mgr.new.run dflt h).1 n ((era dflt n h).map eraSys) ∧ MgrInv (Mgr.new.run dflt h).1 := by
  obtain ⟨h1, _, h3⟩ := Agrees.run dflt h MgrInv.new (n := n) (r := none) rfl hp
  rw [era_lone] at h1
  exact ⟨h1, h3⟩

/-- The answer to a request on a queue. -/
theorem era_answer (dflt : Config) (n : Str) {h : List MEvent} (hp : PlainNames h) (o : Op) :
    ((Mgr.new.run dflt h).1.step dflt (.op n o)).2 =
      match (generalizing := false) era dflt n h with | none => missing o | some x => .out (step (eraSys x).q o).2.1 := by
  obtain ⟨h1, h3⟩ := era_agrees dflt n hp
  rw [(Agrees.step h3 dflt h1 (.op n o) (by simp [MEvent.about, MEvent.target]) (by simp [PlainNames])).2]
  cases era dflt n h <;> rfl

theorem era_stays {dflt : Config} {n : Str} : ∀ (h : List MEvent) {x : Config × List Event}, MEvent.delete n ∉ h →
    h.foldl (eraStep dflt n) (some x) = some (x.1, x.2 ++ evsOn n h) := by
  intro h
  induction h with
  | nil => intro x _; simp [evsOn]
  | cons e h ih =>
    intro x hd
    have hd' : MEvent.delete n ∉ h := fun hm => hd (List.mem_cons_of_mem _ hm)
    simp only [List.foldl_cons]
    cases e with
    | create m vt mr t =>
      have : eraStep dflt n (some x) (.create m vt mr t) = some x := by simp only [eraStep]; split <;> rfl
      rw [this, ih hd']; rfl
    | delete m =>
      have hm : m ≠ n := fun e => hd (e ▸ List.mem_cons_self ..)
      have : eraStep dflt n (some x) (.delete m) = some x := by simp only [eraStep]; rw [if_neg hm]
      rw [this, ih hd']; rfl
    | op m o =>
      by_cases hm : m = n ∧ o.ok
      · have : eraStep dflt n (some x) (.op m o) = some (x.1, x.2 ++ [.op o]) := by simp only [eraStep]; rw [if_pos hm]; rfl
        rw [this, ih hd']; simp [evsOn, hm.1, hm.2]
      · have : eraStep dflt n (some x) (.op m o) = some x := by simp only [eraStep]; rw [if_neg hm]
        rw [this, ih hd']; simp [evsOn, hm]
    | commit m k =>
      by_cases hm : m = n
      · have : eraStep dflt n (some x) (.commit m k) = some (x.1, x.2 ++ [.commit k]) := by simp only [eraStep]; rw [if_pos hm]; rfl
        rw [this, ih hd']; simp [evsOn, hm]
      · have : eraStep dflt n (some x) (.commit m k) = some x := by simp only [eraStep]; rw [if_neg hm]
        rw [this, ih hd']; simp [evsOn, hm]
    | restart now =>
      rw [show eraStep dflt n (some x) (.restart now) = some (x.1, x.2 ++ [.restart now]) from rfl, ih hd']; simp [evsOn]
    | exist m => rw [show eraStep dflt n (some x) (.exist m) = some x from rfl, ih hd']; rfl

theorem era_append (dflt : Config) (n : Str) (a b : List MEvent) : era dflt n (a ++ b) = b.foldl (eraStep dflt n) (era dflt n a) := List.foldl_append

theorem evsOn_append (n : Str) (a b : List MEvent) : evsOn n (a ++ b) = evsOn n a ++ evsOn n b := List.filterMap_append

theorem mem_evsOn {n : Str} {h : List MEvent} {o : Op} (hm : .op o ∈ evsOn n h) : .op n o ∈ h ∧ o.ok := by
  simp only [evsOn, List.mem_filterMap] at hm
  obtain ⟨e, he, hx⟩ := hm
  cases e with
  | op m o' =>
    simp only at hx
    split at hx
    · next hc => injection hx with hx; injection hx with hx; subst hx; rw [← hc.1]; exact ⟨he, hc.2⟩
    · cases hx
  | commit m k => simp only at hx; split at hx <;> simp at hx
  | restart now => simp at hx
  | _ => cases hx

theorem restart_evsOn {n : Str} {h : List MEvent} {now : Nat} (hm : .restart now ∈ evsOn n h) : .restart now ∈ h := by
  simp only [evsOn, List.mem_filterMap] at hm
  obtain ⟨e, he, hx⟩ := hm
  cases e with
  | op m o' => simp only at hx; split at hx <;> simp at hx
  | commit m k => simp only at hx; split at hx <;> simp at hx
  | restart now' => simp at hx; subst hx; exact he
  | _ => cases hx

/-- An event of one queue comes from an event of the manager. -/
def Comes (n : Str) : Event → MEvent → Prop
  | .op o, me => me = .op n o ∧ o.ok
  | .commit k, me => me = .commit n k
  | .restart now, me => me = .restart now

/-- Every event in the history of a queue comes from an event of the manager. -/
theorem evsOn_split {n : Str} : ∀ {h : List MEvent} {es₁ es₂ : List Event} {e : Event}, evsOn n h = es₁ ++ e :: es₂ →
    ∃ h₁ me h₂, h = h₁ ++ me :: h₂ ∧ evsOn n h₁ = es₁ ∧ evsOn n h₂ = es₂ ∧
      Comes n e me := by
  intro h
  induction h with
  | nil => intro es1 es2 e he; cases es1 <;> cases he
  | cons x h ih =>
    intro es1 es2 e he
    have hx : evsOn n (x :: h) = evsOn n [x] ++ evsOn n h := evsOn_append n [x] h
    rw [hx] at he
    cases hs : evsOn n [x] with
    | nil =>
      rw [hs, List.nil_append] at he
      obtain ⟨h1, me, h2, e1, e2, e3, e4⟩ := ih he
      exact ⟨x :: h1, me, h2, by rw [e1]; rfl, by rw [show evsOn n (x :: h1) = evsOn n [x] ++ evsOn n h1 from evsOn_append n [x] h1, hs, e2]; rfl, e3, e4⟩
    | cons y ys =>
      have hone : ys = [] ∧ Comes n y x := by
        cases x with
        | op m o =>
          by_cases hm : m = n ∧ o.ok
          · simp only [evsOn, List.filterMap_cons, hm, and_self, if_true, List.filterMap_nil, List.cons.injEq] at hs
            obtain ⟨rfl, rfl⟩ := hs; exact ⟨rfl, hm.1 ▸ rfl, hm.2⟩
          · simp only [evsOn, List.filterMap_cons, hm, if_false, List.filterMap_nil] at hs; cases hs
        | commit m k =>
          by_cases hm : m = n
          · simp only [evsOn, List.filterMap_cons, hm, if_true, List.filterMap_nil, List.cons.injEq] at hs
            obtain ⟨rfl, rfl⟩ := hs; exact ⟨rfl, hm ▸ rfl⟩
          · simp only [evsOn, List.filterMap_cons, hm, if_false, List.filterMap_nil] at hs; cases hs
        | restart now =>
          simp only [evsOn, List.filterMap_cons, List.filterMap_nil, List.cons.injEq] at hs
          obtain ⟨rfl, rfl⟩ := hs; exact ⟨rfl, rfl⟩
        | create => cases hs
        | delete => cases hs
        | exist => cases hs
      obtain ⟨rfl, hy⟩ := hone
      rw [hs] at he
      cases es1 with
      | nil =>
        simp only [List.cons_append, List.nil_append, List.cons.injEq] at he
        obtain ⟨rfl, he⟩ := he
        exact ⟨[], x, h, rfl, rfl, he, hy⟩
      | cons z es1 =>
        simp only [List.cons_append, List.nil_append, List.cons.injEq] at he
        obtain ⟨rfl, he⟩ := he
        obtain ⟨h1, me, h2, e1, e2, e3, e4⟩ := ih he
        exact ⟨x :: h1, me, h2, by rw [e1]; rfl, by rw [show evsOn n (x :: h1) = evsOn n [x] ++ evsOn n h1 from evsOn_append n [x] h1, hs, e2]; rfl, e3, e4⟩

/-- A history of requests without a failing allocation, with new ids, is valid. -/
theorem era_valid {dflt : Config} {n : Str} {h : List MEvent} {x : Config × List Event} (hx : era dflt n h = some x)
    (hf : ∀ y, life dflt n h = some y → Fresh [] y.2) : ValidHist x.2 := by
  have hl := era_life dflt n h
  rw [hx] at hl
  have hfr := hf _ hl.symm
  refine ⟨?_, by rw [← pushIds_opsOf]; exact hfr.2.1⟩
  intro e he
  cases e with
  | op o => exact hfr.1 o (mem_opsOf.2 he)
  | _ => trivial

/-! ## Messages that wait -/

/-- The message waits and was never handed out. -/
def Unserved (q : QInner) (id : Id) : Prop := ∃ m, mget q.state.registry id = some m ∧ m.state = .ready ∧ m.attempts = 0

theorem Unserved.ready {q : QInner} {a : Q} {used : Id → Prop} (h : RQ q a used) {id : Id} (hw : Unserved q id) :
    ∃ x ∈ a.ready, x.id = id ∧ x.attempts = 0 := by
  obtain ⟨m, h1, h2, h3⟩ := hw
  obtain ⟨hid, hc⟩ := RS.comp h.st id m h1
  rcases hc with ⟨_, hc⟩ | ⟨ts, hts, _⟩
  · exact ⟨m.item, hc, hid, h3⟩
  · rw [h2] at hts; cases hts

theorem Unserved.of {q : QInner} {a : Q} {used : Id → Prop} (h : RQ q a used) {id : Id} {x : Spec.Queue.Item} (hx : x ∈ a.ready) (hi : x.id = id)
    (ha : x.attempts = 0) : Unserved q id := by
  obtain ⟨m, h1, h2, h3⟩ := RS.cr h.st x hx
  exact ⟨m, by rw [← hi]; exact h1, h3, by rw [← ha, ← h2]; rfl⟩

theorem Unserved.push {q : QInner} {a : Q} {used : List Id} (h : RQ q a (· ∈ used)) {id : Id} (pl : Bytes) (pr t : Nat) (hu : id ∉ used) :
    Unserved (step q (.push id pl pr t)).1 id := by
  obtain ⟨s1, _, _⟩ := h.stepU (op := .push id pl pr t) trivial (by simpa [Op.pushId] using hu)
  exact Unserved.of s1 (x := ⟨id, pl, pr, 0, t⟩) (Spec.Queue.mem_lineUp.2 (.inl rfl)) rfl rfl

theorem Unserved.step {q : QInner} {a : Q} {used : List Id} (h : RQ q a (· ∈ used)) {id : Id} (hw : Unserved q id) {o : Op} (hok : o.ok)
    (hf : ∀ i ∈ o.pushId, i ∉ used) (h1 : o ≠ .ack id) (h2 : ∀ rs t, o ≠ .nack id rs t) (h3 : id ∉ (step q o).2.1.delivered) :
    Unserved (step q o).1 id := by
  obtain ⟨s1, _, s3⟩ := h.stepU hok hf
  obtain ⟨x, hx, hi, ha⟩ := hw.ready h
  refine Unserved.of s1 (x := x) ?_ hi ha
  refine Spec.Queue.ready_stays hx ?_ ?_ ?_
  · intro he; cases o <;> simp only [Op.req, reduceCtorEq, Spec.Queue.Req.ack.injEq] at he
    subst he; exact h1 (by rw [hi])
  · intro rs t he; cases o <;> simp only [Op.req, reduceCtorEq, Spec.Queue.Req.nack.injEq] at he
    obtain ⟨rfl, rfl, rfl⟩ := he; exact h2 _ _ (by rw [hi])
  · rw [hi, ← show _ = (Spec.Queue.step _ _ _ a o.req).2.delivered from s3]; exact h3

/-- The entry of such a message in the tables. -/
def Fallow (e : Option Row × Option DlqMsg) : Prop := ∃ r, e = (some r, none) ∧ r.attempts = 0

theorem Unserved.entry {q : QInner} {a : Q} {used : Id → Prop} (h : RQ q a used) {id : Id} (hw : Unserved q id) {db : DB} (hr : DBR q db) :
    Fallow (Verif.Queue.entry db id) := by
  obtain ⟨m, h1, h2, h3⟩ := hw
  refine ⟨m.row, ?_, h3⟩
  unfold Verif.Queue.entry
  rw [hr.main.eq, h1, hr.dlq]
  congr 1
  rw [mget_eq_none]
  intro hm
  rw [h.disj id hm] at h1; cases h1

/-- The message waits, and would wait after a crash at any point. -/
structure Rests (s : Sys) (id : Id) : Prop where
  now : Unserved s.q id
  kept : ∀ n, Fallow (entry (execAll s.db (s.pending.take n)) id)

theorem take_untouched {L : List StorageOp} {id : Id} (h : ∀ op ∈ L, touches id op = false) (n : Nat) : (L.take n).filter (touches id) = [] :=
  List.filter_eq_nil_iff.2 (fun op ho => by rw [h op (List.mem_of_mem_take ho)]; decide)

theorem untouched {L : List StorageOp} {id : Id} (h : ∀ op ∈ L, touches id op = false) : L.filter (touches id) = [] :=
  List.filter_eq_nil_iff.2 (fun op ho => by rw [h op ho]; decide)

theorem Rests.written {s : Sys} {used : Id → Prop} (hi : SysInv s used) {id : Id} (hw : Unserved s.q id)
    (hp : ∀ op ∈ s.pending, touches id op = false) : Rests s id := by
  obtain ⟨a, ha⟩ := hi.q
  refine ⟨hw, fun n => ?_⟩
  rw [entry_execAll_ne _ (take_untouched hp n)]
  have := hw.entry ha hi.agree
  rwa [entry_execAll_ne _ (untouched hp)] at this

theorem Rests.op {s : Sys} {used : List Id} (hi : SysInv s (· ∈ used)) {id : Id} (h : Rests s id) {o : Op} (hok : o.ok)
    (hf : ∀ i ∈ o.pushId, i ∉ used) (h1 : o ≠ .ack id) (h2 : ∀ rs t, o ≠ .nack id rs t) (h3 : id ∉ (Queue.step s.q o).2.1.delivered) :
    Rests (s.step (.op o)).1 id := by
  obtain ⟨a, ha⟩ := hi.q
  have hw := Unserved.step ha h.now hok hf h1 h2 h3
  refine ⟨hw, ?_⟩
  have hi' := hi.op o hok hf
  obtain ⟨a', ha'⟩ := hi'.q
  have hfull := hw.entry ha' hi'.agree
  intro n
  show Fallow (entry (execAll s.db ((s.pending ++ (Queue.step s.q o).2.2).take n)) id)
  rw [List.take_append, execAll_append]
  by_cases hn : n ≤ s.pending.length
  · have : n - s.pending.length = 0 := by omega
    rw [this, List.take_zero]
    exact h.kept n
  · have : s.pending.take n = s.pending := List.take_of_length_le (by omega)
    rw [this]
    rcases entry_prefix (step_touch ha o hok id) (execAll s.db s.pending) (n - s.pending.length) with h4 | h4
    · rw [h4]
      have := h.kept s.pending.length
      rwa [List.take_length] at this
    · rw [h4, ← execAll_append]
      exact hfull

theorem Rests.commit {s : Sys} {id : Id} (h : Rests s id) (k : Nat) : Rests (s.step (.commit k)).1 id := by
  refine ⟨h.now, fun m => ?_⟩
  show Fallow (entry (execAll (execAll s.db (s.pending.take k)) ((s.pending.drop k).take m)) id)
  rw [← execAll_append, ← List.take_add]
  exact h.kept (k + m)

theorem Rests.restart {s : Sys} {used : Id → Prop} (hi : SysInv s used) {id : Id} (h : Rests s id) (now : Nat) : Rests (s.step (.restart now)).1 id := by
  obtain ⟨r, hr, h0⟩ := h.kept 0
  have he : entry s.db id = (some r, none) := by simpa [execAll] using hr
  refine ⟨⟨loadRow now id r, ?_, ?_, h0⟩, fun m => ?_⟩
  · show mget (recover s.q.cfg now s.db).state.registry id = _
    rw [(RQ.recover hi.db s.q.cfg now).2.2 id, (Prod.mk.inj he).1]; rfl
  · simp only [loadRow, h0]; simp
  · have := h.kept 0
    simpa [Sys.step] using this

/-! ## Messages that are gone -/

/-- The message is in none of the tables, and would not be after a crash at any point. -/
structure Erased (s : Sys) (id : Id) : Prop where
  now : place s.q id = .gone
  kept : ∀ n, entry (execAll s.db (s.pending.take n)) id = (none, none)

theorem Erased.written {s : Sys} {used : Id → Prop} (hi : SysInv s used) {id : Id} (hw : place s.q id = .gone)
    (hp : ∀ op ∈ s.pending, touches id op = false) : Erased s id := by
  obtain ⟨a, ha⟩ := hi.q
  refine ⟨hw, fun n => ?_⟩
  rw [entry_execAll_ne _ (take_untouched hp n)]
  have := (place_entry ha hi.agree id).1 hw
  rwa [entry_execAll_ne _ (untouched hp)] at this

theorem gone_step {q : QInner} {a : Q} {used : List Id} (h : RQ q a (· ∈ used)) {id : Id} (hg : place q id = .gone) (hu : id ∈ used) {o : Op} (hok : o.ok)
    (hf : ∀ i ∈ o.pushId, i ∉ used) : place (step q o).1 id = .gone ∧ id ∉ (step q o).2.1.delivered := by
  have hfr : Fresh used [o] := by
    refine ⟨by simpa using hok, ?_, ?_⟩
    · cases o <;> simp [pushIds]
    · intro i hi2
      refine hf i ?_
      cases o <;> simp_all [pushIds, Op.pushId]
  obtain ⟨h1, a', h2, h3⟩ := gone_run [o] h hfr ((place_gone h id).1 hg) hu
  exact ⟨(place_gone h2 id).2 h3, h1 _ (by simp [run])⟩

theorem Erased.op {s : Sys} {used : List Id} (hi : SysInv s (· ∈ used)) {id : Id} (hu : id ∈ used) (h : Erased s id) {o : Op} (hok : o.ok)
    (hf : ∀ i ∈ o.pushId, i ∉ used) : Erased (s.step (.op o)).1 id := by
  obtain ⟨a, ha⟩ := hi.q
  have hw := (gone_step ha h.now hu hok hf).1
  refine ⟨hw, ?_⟩
  have hi' := hi.op o hok hf
  obtain ⟨a', ha'⟩ := hi'.q
  have hfull := (place_entry ha' hi'.agree id).1 hw
  intro n
  show entry (execAll s.db ((s.pending ++ (Queue.step s.q o).2.2).take n)) id = _
  rw [List.take_append, execAll_append]
  by_cases hn : n ≤ s.pending.length
  · have : n - s.pending.length = 0 := by omega
    rw [this, List.take_zero]
    exact h.kept n
  · have : s.pending.take n = s.pending := List.take_of_length_le (by omega)
    rw [this]
    rcases entry_prefix (step_touch ha o hok id) (execAll s.db s.pending) (n - s.pending.length) with h4 | h4
    · rw [h4]
      have := h.kept s.pending.length
      rwa [List.take_length] at this
    · rw [h4, ← execAll_append]
      exact hfull

theorem Erased.step {s : Sys} {used : List Id} (hi : SysInv s (· ∈ used)) {id : Id} (hu : id ∈ used) (h : Erased s id) (e : Event) (hok : e.ok)
    (hf : ∀ i ∈ eventIds [e], i ∉ used) : Erased (s.step e).1 id := by
  cases e with
  | op o => exact h.op hi hu hok (by simpa [eventIds] using hf)
  | commit k =>
    refine ⟨h.now, fun m => ?_⟩
    show entry (execAll (execAll s.db (s.pending.take k)) ((s.pending.drop k).take m)) id = _
    rw [← execAll_append, ← List.take_add]
    exact h.kept (k + m)
  | restart now =>
    have he : entry s.db id = (none, none) := by simpa [execAll] using h.kept 0
    refine ⟨?_, fun m => ?_⟩
    · obtain ⟨r1, r2, r3⟩ := RQ.recover hi.db s.q.cfg now
      show place (recover s.q.cfg now s.db) id = .gone
      rw [place_eq r1, r3, r2, (Prod.mk.inj he).1, (Prod.mk.inj he).2]; rfl
    · have := h.kept 0
      simpa [Sys.step] using this

/-! ## Histories -/

/-- Nothing in the history `E` after `es` gives the message to anybody, acknowledges it or refuses it. -/
def Undisturbed (id : Id) (c : Config) (es E : List Event) : Prop :=
  ∀ E₁ o E₂, E = E₁ ++ .op o :: E₂ → o ≠ .ack id ∧ (∀ rs t, o ≠ .nack id rs t) ∧ id ∉ (Queue.step (eraSys (c, es ++ E₁)).q o).2.1.delivered

theorem Undisturbed.left {id : Id} {c : Config} {es E F : List Event} (h : Undisturbed id c es (E ++ F)) : Undisturbed id c es E := by
  intro E1 o E2 he
  exact h E1 o (E2 ++ F) (by rw [he]; simp)

theorem Undisturbed.right {id : Id} {c : Config} {es E F : List Event} (h : Undisturbed id c es (E ++ F)) : Undisturbed id c (es ++ E) F := by
  intro E1 o E2 he
  rw [List.append_assoc]
  exact h (E ++ E1) o E2 (by rw [he]; simp)

theorem unserved_run {id : Id} {c : Config} {es : List Event} (E : List Event) (hv : ValidHist (es ++ E)) (hr : ∀ now, .restart now ∉ E)
    (hu : Undisturbed id c es E) (h : Unserved (eraSys (c, es)).q id) : Unserved (eraSys (c, es ++ E)).q id := by
  induction E using Sdk.snoc_ind with
  | h0 => simpa using h
  | h1 E e ih =>
    rw [← List.append_assoc] at hv ⊢
    have hw := ih hv.left (fun now hm => hr now (List.mem_append_left _ hm)) hu.left
    rw [eraSys_snoc]
    cases e with
    | op o =>
      obtain ⟨a, ha⟩ := (sysInv c hv.left).q
      obtain ⟨h1, h2, h3⟩ := hu E o [] rfl
      exact Unserved.step ha hw (hv.1 (.op o) (by simp)) (fun i hi => hv.right.2 i (by simpa [eventIds] using hi)) h1 h2 h3
    | commit k => exact hw
    | restart now => exact absurd (by simp) (hr now)

theorem rests_run {id : Id} {c : Config} {es : List Event} (E : List Event) (hv : ValidHist (es ++ E)) (hu : Undisturbed id c es E)
    (h : Rests (eraSys (c, es)) id) : Rests (eraSys (c, es ++ E)) id := by
  induction E using Sdk.snoc_ind with
  | h0 => simpa using h
  | h1 E e ih =>
    rw [← List.append_assoc] at hv ⊢
    have hw := ih hv.left hu.left
    have hi : SysInv (eraSys (c, es ++ E)) _ := sysInv c hv.left
    rw [eraSys_snoc]
    cases e with
    | op o =>
      obtain ⟨h1, h2, h3⟩ := hu E o [] rfl
      exact hw.op hi (hv.1 (.op o) (by simp)) (fun i hi => hv.right.2 i (by simpa [eventIds] using hi)) h1 h2 h3
    | commit k => exact hw.commit k
    | restart now => exact hw.restart hi now

theorem place_gone_run {id : Id} {c : Config} {es : List Event} (E : List Event) (hv : ValidHist (es ++ E)) (hr : ∀ now, .restart now ∉ E)
    (hid : id ∈ eventIds es) (h : place (eraSys (c, es)).q id = .gone) : place (eraSys (c, es ++ E)).q id = .gone := by
  induction E using Sdk.snoc_ind with
  | h0 => simpa using h
  | h1 E e ih =>
    rw [← List.append_assoc] at hv ⊢
    have hw := ih hv.left (fun now hm => hr now (List.mem_append_left _ hm))
    rw [eraSys_snoc]
    cases e with
    | op o =>
      obtain ⟨a, ha⟩ := (sysInv c hv.left).q
      exact (gone_step ha hw (by rw [eventIds_append]; exact List.mem_append_left _ hid) (hv.1 (.op o) (by simp))
        (fun i hi => hv.right.2 i (by simpa [eventIds] using hi))).1
    | commit k => exact hw
    | restart now => exact absurd (by simp) (hr now)

theorem erased_run {id : Id} {c : Config} {es : List Event} (E : List Event) (hv : ValidHist (es ++ E)) (hid : id ∈ eventIds es)
    (h : Erased (eraSys (c, es)) id) : Erased (eraSys (c, es ++ E)) id := by
  induction E using Sdk.snoc_ind with
  | h0 => simpa using h
  | h1 E e ih =>
    rw [← List.append_assoc] at hv ⊢
    have hi : SysInv (eraSys (c, es ++ E)) _ := sysInv c hv.left
    rw [eraSys_snoc]
    exact (ih hv.left).step hi (by rw [eventIds_append]; exact List.mem_append_left _ hid) e (hv.1 e (by simp)) (fun i hi => hv.right.2 i hi)

/-- Everything a consume gives was pushed. -/
theorem era_pushed {c : Config} {es : List Event} (hv : ValidHist es) {n now : Nat} (hok : (Op.consume n now).ok) {msgs : List Msg}
    (hm : (Queue.step (eraSys (c, es)).q (.consume n now)).2.1 = .msgs msgs) :
    (msgs.map (·.id)).Nodup ∧ ∀ m ∈ msgs, Op.push m.id m.payload m.priority m.createdAt ∈ opsOf es := by
  have hsc := SC.run (fun c => Op.push c.1 c.2.1 c.2.2.1 c.2.2.2 ∈ opsOf es) c es hv (by
    intro o ho c hc
    cases o <;> simp only [Op.pushCore, List.mem_singleton, List.not_mem_nil] at hc
    subst hc
    exact mem_opsOf.2 ho)
  obtain ⟨a, ha⟩ := hsc.q
  have ha' : RQ (eraSys (c, es)).q a (· ∈ eventIds es) := ha
  have hc := step_content ha' hsc.qc (.consume n now) hok (by simp [Op.pushId]) (by simp [Op.pushCore])
  obtain ⟨s1, _, s3⟩ := ha'.stepU (op := .consume n now) hok (by simp [Op.pushId])
  refine ⟨?_, ?_⟩
  · rw [hm] at s3
    have s4 : msgs.map (·.id) = (sstep (eraSys (c, es)).q.cfg a (.consume n now)).2.delivered := s3
    rw [s4]
    have e : (sstep (eraSys (c, es)).q.cfg a (.consume n now)).2.delivered = (a.ready.take n).map (·.id) := by
      simp only [sstep, Op.req, Spec.Queue.step, Spec.Queue.Ans.delivered]
      rw [(Spec.Queue.serveN_eq _ _ _).1, List.map_map]; rfl
    rw [e]
    have := RS.ndr ha'.st
    exact this.sublist ((List.take_sublist n a.ready).map _)
  · intro m hmm
    have := handed_out ha' (.consume n now) hm hmm
    exact (QContent.reg s1 hc this).1

/-! ## Messages that are handed out -/

/-- The message is handed out until `due`, or gone. -/
def Lent (q : QInner) (id : Id) (due : Nat) : Prop :=
  (∃ m, mget q.state.registry id = some m ∧ m.state = .inFlight due) ∨ place q id = .gone

theorem Lent.iff {q : QInner} {a : Q} {used : Id → Prop} (h : RQ q a used) {id : Id} {due : Nat} : Lent q id due ↔ Spec.Queue.Held id due a := by
  unfold Lent Spec.Queue.Held
  rw [place_gone h]
  refine or_congr ⟨?_, ?_⟩ Iff.rfl
  · rintro ⟨m, h1, h2⟩
    obtain ⟨hid, hc⟩ := RS.comp h.st id m h1
    rcases hc with ⟨hc, _⟩ | ⟨ts, hts, hc⟩
    · rw [h2] at hc; cases hc
    · rw [h2] at hts
      injection hts with hts
      subst hts
      exact ⟨_, hc, hid⟩
  · rintro ⟨x, hx, hi⟩
    obtain ⟨m, h1, _, h3⟩ := RS.cf h.st _ hx
    simp only [hi] at h1 h3
    exact ⟨m, h1, h3⟩

theorem Lent.step {q : QInner} {a : Q} {used : List Id} (h : RQ q a (· ∈ used)) {id : Id} {due : Nat} (hl : Lent q id due) (hu : id ∈ used) {o : Op} (hok : o.ok)
    (hf : ∀ i ∈ o.pushId, i ∉ used) (hr : ¬ Spec.Queue.releases id due o.req) :
    Lent (step q o).1 id due ∧ id ∉ (step q o).2.1.delivered := by
  obtain ⟨s1, _, s3⟩ := h.stepU hok hf
  obtain ⟨k1, k2⟩ := Spec.Queue.Held.step (vt := q.cfg.visibilityTimeout) (mr := q.cfg.maxRetries) (tr := timeoutReason)
    h.view.distinct ((Lent.iff h).1 hl) o.req hr (by rw [addedBy_pushId]; exact fun hm => hf id hm hu)
  exact ⟨(Lent.iff s1).2 k1, by rw [s3]; exact k2⟩

/-- The entry of such a message in the tables. -/
def Charged (due : Nat) (e : Option Row × Option DlqMsg) : Prop := (∃ r, e = (some r, none) ∧ r.visibleAt = due ∧ 0 < r.attempts) ∨ e = (none, none)

theorem Lent.entry {q : QInner} {a : Q} {used : Id → Prop} (h : RQ q a used) {id : Id} {due T : Nat} (hw : Lent q id due) (hg : RegI T (mget q.state.registry))
    {db : DB} (hr : DBR q db) : Charged due (Verif.Queue.entry db id) := by
  rcases hw with ⟨m, h1, h2⟩ | hw
  · left
    have := hg id m h1
    unfold MsgI at this
    rw [h2] at this
    refine ⟨m.row, ?_, this.1, this.2⟩
    unfold Verif.Queue.entry
    rw [hr.main.eq, h1, hr.dlq]
    congr 1
    rw [mget_eq_none]
    intro hm
    rw [h.disj id hm] at h1; cases h1
  · exact .inr ((place_entry h hr id).1 hw)

/-- The message is handed out until `due` or gone, and would be after a crash at any point. -/
structure Loan (s : Sys) (id : Id) (due : Nat) : Prop where
  now : Lent s.q id due
  kept : ∀ n, Charged due (entry (execAll s.db (s.pending.take n)) id)

theorem Loan.written {s : Sys} {used : Id → Prop} (hi : SysInv s used) {T : Nat} (hg : RegI T (mget s.q.state.registry)) {id : Id} {due : Nat} (hw : Lent s.q id due)
    (hp : ∀ op ∈ s.pending, touches id op = false) : Loan s id due := by
  obtain ⟨a, ha⟩ := hi.q
  refine ⟨hw, fun n => ?_⟩
  rw [entry_execAll_ne _ (take_untouched hp n)]
  have := hw.entry ha hg hi.agree
  rwa [entry_execAll_ne _ (untouched hp)] at this

theorem Loan.op {s : Sys} {used : List Id} (hi : SysInv s (· ∈ used)) {T : Nat} (hg : RegI T (mget s.q.state.registry)) {id : Id} {due : Nat} (hu : id ∈ used)
    (h : Loan s id due) {o : Op} (hok : o.ok) (hf : ∀ i ∈ o.pushId, i ∉ used) (hr : ¬ Spec.Queue.releases id due o.req) : Loan (s.step (.op o)).1 id due := by
  obtain ⟨a, ha⟩ := hi.q
  have hw := (h.now.step ha hu hok hf hr).1
  refine ⟨hw, ?_⟩
  have hi' := hi.op o hok hf
  obtain ⟨a', ha'⟩ := hi'.q
  have hfull := Lent.entry ha' hw (RegI.step ha hg o hok hf) hi'.agree
  intro n
  show Charged due (entry (execAll s.db ((s.pending ++ (Queue.step s.q o).2.2).take n)) id)
  rw [List.take_append, execAll_append]
  by_cases hn : n ≤ s.pending.length
  · have : n - s.pending.length = 0 := by omega
    rw [this, List.take_zero]
    exact h.kept n
  · have : s.pending.take n = s.pending := List.take_of_length_le (by omega)
    rw [this]
    rcases entry_prefix (step_touch ha o hok id) (execAll s.db s.pending) (n - s.pending.length) with h4 | h4
    · rw [h4]
      have := h.kept s.pending.length
      rwa [List.take_length] at this
    · rw [h4, ← execAll_append]
      exact hfull

theorem Loan.commit {s : Sys} {id : Id} {due : Nat} (h : Loan s id due) (k : Nat) : Loan (s.step (.commit k)).1 id due := by
  refine ⟨h.now, fun m => ?_⟩
  show Charged due (entry (execAll (execAll s.db (s.pending.take k)) ((s.pending.drop k).take m)) id)
  rw [← execAll_append, ← List.take_add]
  exact h.kept (k + m)

theorem Loan.restart {s : Sys} {used : Id → Prop} (hi : SysInv s used) {id : Id} {due : Nat} (h : Loan s id due) {now : Nat} (hn : now < due) :
    Loan (s.step (.restart now)).1 id due := by
  obtain ⟨r1, r2, r3⟩ := RQ.recover hi.db s.q.cfg now
  refine ⟨?_, fun m => by have := h.kept 0; simpa [Sys.step] using this⟩
  have h0 := h.kept 0
  simp only [List.take_zero, execAll, List.foldl_nil] at h0
  rcases h0 with ⟨r, he, hv, ha⟩ | he
  · left
    refine ⟨loadRow now id r, ?_, ?_⟩
    · show mget (recover s.q.cfg now s.db).state.registry id = _
      rw [r3 id, (Prod.mk.inj he).1]; rfl
    · have : r.visibleAt > now ∧ r.attempts > 0 := ⟨by omega, ha⟩
      simp only [loadRow]; rw [if_pos this, hv]
  · right
    show place (recover s.q.cfg now s.db) id = .gone
    rw [place_eq r1, r3, r2, (Prod.mk.inj he).1, (Prod.mk.inj he).2]; rfl

theorem lent_run {id : Id} {c : Config} {due : Nat} {es : List Event} (E : List Event) (hv : ValidHist (es ++ E)) (hr : ∀ now, .restart now ∉ E)
    (hid : id ∈ eventIds es) (hrel : ∀ o, .op o ∈ E → ¬ Spec.Queue.releases id due o.req)
    (h : Lent (eraSys (c, es)).q id due) : Lent (eraSys (c, es ++ E)).q id due := by
  induction E using Sdk.snoc_ind with
  | h0 => simpa using h
  | h1 E e ih =>
    rw [← List.append_assoc] at hv ⊢
    have hw := ih hv.left (fun now hm => hr now (List.mem_append_left _ hm)) (fun o ho => hrel o (List.mem_append_left _ ho))
    rw [eraSys_snoc]
    cases e with
    | op o =>
      obtain ⟨a, ha⟩ := (sysInv c hv.left).q
      exact (Lent.step ha hw (by rw [eventIds_append]; exact List.mem_append_left _ hid) (hv.1 (.op o) (by simp))
        (fun i hi => hv.right.2 i (by simpa [eventIds] using hi)) (hrel o (by simp))).1
    | commit k => exact hw
    | restart now => exact absurd (by simp) (hr now)

theorem loan_run {id : Id} {c : Config} {due : Nat} {es : List Event} (E : List Event) (hv : ValidHist (es ++ E)) (hr : ∀ now, .restart now ∈ E → now < due)
    (hid : id ∈ eventIds es) (hrel : ∀ o, .op o ∈ E → ¬ Spec.Queue.releases id due o.req)
    (h : Loan (eraSys (c, es)) id due) : Loan (eraSys (c, es ++ E)) id due := by
  induction E using Sdk.snoc_ind with
  | h0 => simpa using h
  | h1 E e ih =>
    rw [← List.append_assoc] at hv ⊢
    have hw := ih hv.left (fun now hm => hr now (List.mem_append_left _ hm)) (fun o ho => hrel o (List.mem_append_left _ ho))
    have hi : SysInv (eraSys (c, es ++ E)) _ := sysInv c hv.left
    rw [eraSys_snoc]
    cases e with
    | op o =>
      exact hw.op hi (regI c _ hv.left) (by rw [eventIds_append]; exact List.mem_append_left _ hid) (hv.1 (.op o) (by simp))
        (fun i hi => hv.right.2 i (by simpa [eventIds] using hi)) (hrel o (by simp))
    | commit k => exact hw.commit k
    | restart now => exact hw.restart hi (hr now (by simp))

end Verif.Queue
