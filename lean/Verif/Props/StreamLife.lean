import Verif.Proofs.StreamLife

/-!
# Properties C80 and C81: overlapping requests that create, delete and use one stream topic
-/

namespace Verif.StreamLife

/-- Nothing is left of the topic. -/
structure Gone (s : Life) : Prop where
  live : s.live = none
  saving : s.saving = none
  chan : s.chan = []
  dir : s.dir = none
  tasks : ∀ r t, mget s.tasks r = some t → t.isDelete = true

theorem Gone.step {sys : Defaults} {s : Life} (h : Gone s) (e : Ev) (he : ∀ r o, e ≠ .create r o) : Gone (s.step sys e).1 := by
  cases e with
  | create r o => exact absurd rfl (he r o)
  | createOn r =>
    have : (s.createOn sys r).1 = s := by
      cases hg : mget s.tasks r with
      | none => simp only [Life.createOn, hg]
      | some t =>
        have := h.tasks r t hg
        cases t <;> first | (simp only [Life.createOn, hg]; done) | cases this
    simp only [Life.step, this]
    exact h
  | delete r =>
    simp only [Life.step, h.live]
    split
    · exact h
    · refine ⟨rfl, h.saving, h.chan, h.dir, ?_⟩
      intro r' t hg
      rw [mget_mset] at hg
      split at hg
      · injection hg with hg; subst hg; rfl
      · exact h.tasks r' t hg
  | deleteOn r =>
    simp only [Life.step]
    cases hg : mget s.tasks r with
    | none => exact h
    | some t =>
      cases t with
      | look =>
        simp only [h.dir, Option.isSome]
        refine ⟨h.live, h.saving, h.chan, rfl, ?_⟩
        intro r' t hg'
        simp only [Bool.false_eq_true, if_false] at hg'
        rw [mget_mdel] at hg'
        split at hg'
        · exact nomatch hg'
        · exact h.tasks r' t hg'
      | _ => exact h
  | publish r p =>
    simp only [Life.step, h.live]
    split <;> exact h
  | publishOn r =>
    simp only [Life.step, Life.publishOn]
    cases hg : mget s.tasks r with
    | none => exact h
    | some t =>
      have hdel := h.tasks r t hg
      cases t <;> first | (exact h) | cases hdel
  | ack g n => simp only [Life.step, h.live]; exact h
  | saveTake => simp only [Life.step, h.live]; exact h
  | saveSend => simp only [Life.step, h.saving]; exact h
  | store => simp only [Life.step, h.chan]; exact h
  | exist => exact h
  | restart =>
    simp only [Life.step, h.dir]
    exact ⟨rfl, rfl, rfl, rfl, fun _ _ hh => nomatch hh⟩

theorem Gone.run {sys : Defaults} : ∀ {es : List Ev} {s : Life}, Gone s → (∀ e ∈ es, ∀ r o, e ≠ .create r o) → Gone (s.run sys es).1
  | [], _, h, _ => h
  | e :: es, s, h, he => Gone.run (es := es) (s := (s.step sys e).1) (h.step e (he e (List.mem_cons_self ..))) (fun e' he' => he e' (List.mem_cons_of_mem _ he'))

theorem Down.run {sys : Defaults} : ∀ {es : List Ev} {s : Life}, Down s → Apart sys s es → (∀ e ∈ es, ∀ r o, e ≠ .create r o) → (∀ e ∈ es, e ≠ .restart) →
    Down (s.run sys es).1
  | [], _, h, _, _, _ => h
  | e :: es, s, h, ha, he, hr => by
    refine Down.run (es := es) (s := (s.step sys e).1) ?_ ha.2 (fun e' he' => he e' (List.mem_cons_of_mem _ he')) (fun e' he' => hr e' (List.mem_cons_of_mem _ he'))
    rcases down_step h e ⟨ha.1, trivial⟩ (hr e (List.mem_cons_self ..)) with hd | ⟨r, o, _, hh⟩
    · exact hd
    · exact absurd hh (he e (List.mem_cons_self ..) r o)

/-! ## C80 -/

/-- C80: when a delete begins while no publish and no create of the topic is unanswered and no group progress is on its way, and all
deletes have been answered at the end of `b`, then - until a create begins - the topic does not exist, publishes fail, and it does not
come back at a restart. -/
theorem C80_deleted_partial (sys : Defaults) {a b c : List Ev} {r : Nat} (ha : Apart sys Life.new (a ++ [.delete r] ++ b))
    (hnew : mget (Life.new.run sys a).1.tasks r = none) (hb : ∀ e ∈ b, e ≠ .restart ∧ ∀ r o, e ≠ .create r o)
    (hans : (Life.new.run sys (a ++ [.delete r] ++ b)).1.tasks = []) (hc : ∀ e ∈ c, ∀ r o, e ≠ .create r o) :
    let s := (Life.new.run sys (a ++ [.delete r] ++ b ++ c)).1
    (s.step sys .exist).2 = some (.bool false) ∧ s.topic = none ∧
    (∀ r p, mget s.tasks r = none → (s.step sys (.publish r p)).2 = some .notFound) ∧ ((s.step sys .restart).1.step sys .exist).2 = some (.bool false) := by
  intro s
  obtain ⟨h1, h2⟩ := Apart.split sys (a ++ [.delete r]) _ b ha
  obtain ⟨h0, h3⟩ := Apart.split sys a _ [.delete r] h1
  have hi := Inv.reach h0
  have hm : ¬ mhas (Life.new.run sys a).1.tasks r = true := by unfold mhas; rw [hnew]; exact fun hh => nomatch hh
  have hd : Down ((Life.new.run sys a).1.step sys (.delete r)).1 := by
    rcases hi.state with ⟨k, o, d, hu⟩ | ⟨r', o, hmk⟩ | hdn
    · rcases up_step hi.wf hu (.delete r) h3 (fun hh => nomatch hh) with ⟨o', d', hu'⟩ | ⟨hd', _⟩
      · have := hu'.live
        simp only [Life.step, hu.live, if_neg hm] at this
        exact nomatch this
      · exact hd'
    · obtain ⟨_, _, _, t, ht, hbd⟩ := hmk
      have := h3.1.1
      rw [ht] at this
      simp [hbd.notDelete] at this
    · rcases down_step hdn (.delete r) h3 (fun hh => nomatch hh) with hd' | ⟨_, _, _, hh⟩
      · exact hd'
      · exact nomatch hh
  have hrun : (Life.new.run sys (a ++ [.delete r])).1 = ((Life.new.run sys a).1.step sys (.delete r)).1 := by rw [Life.run_append_fst]; rfl
  rw [hrun] at h2
  have hdb := Down.run hd h2 (fun e he => (hb e he).2) (fun e he => (hb e he).1)
  rw [← hrun, ← Life.run_append_fst] at hdb
  obtain ⟨g1, g2⟩ := hdb.clean hans
  have hg : Gone (Life.new.run sys (a ++ [.delete r] ++ b)).1 := ⟨hdb.live, hdb.saving, g1, g2, hdb.tasks⟩
  have hgs : Gone s := by
    have := hg.run (sys := sys) hc
    rw [← Life.run_append_fst] at this
    exact this
  refine ⟨?_, ?_, ?_, ?_⟩
  · simp only [Life.step, hgs.live, hgs.dir]; rfl
  · simp only [Life.topic, hgs.live]
  · intro r' p hr'
    have hm' : ¬ mhas s.tasks r' = true := by unfold mhas; rw [hr']; exact fun hh => nomatch hh
    simp only [Life.step, hgs.live]
    rw [if_neg hm']
  · have := hgs.step (sys := sys) .restart (fun _ _ hh => nomatch hh)
    have e1 := this.live
    have e2 := this.dir
    generalize (Life.step sys s .restart).1 = s' at *
    simp only [Life.step, e1, e2]; rfl

def exSys : Defaults := { age := 7, bytes := 100 }
def exOpts : Opts := { maxAge := some 5, maxBytes := some 0 }
/-- A create request and all its stages. -/
def creating (r : Nat) (o : Opts) : List Ev := .create r o :: List.replicate 7 (.createOn r)

def exBefore : List Ev := creating 1 exOpts ++ [.publish 2 [20], .publish 3 [30], .publishOn 3, .publishOn 2, .publishOn 2, .publishOn 3, .store, .ack 4 1, .saveTake, .saveSend]
def exDelete : List Ev := [.delete 6, .publish 8 [80], .store, .store, .store, .deleteOn 6, .store]
def exAfter : List Ev := [.publish 8 [80], .restart, .delete 9, .deleteOn 9, .restart]
example : Apart exSys Life.new (exBefore ++ [.delete 5] ++ exDelete) ∧ mget (Life.new.run exSys exBefore).1.tasks 5 = none ∧
    (∀ e ∈ exDelete, e ≠ .restart ∧ ∀ r o, e ≠ .create r o) ∧ (Life.new.run exSys (exBefore ++ [.delete 5] ++ exDelete)).1.tasks = [] ∧
    (∀ e ∈ exAfter, ∀ r o, e ≠ .create r o) ∧
    ((Life.new.run exSys exBefore).1.topic.map Obj.msgs) = some [⟨1, [30]⟩, ⟨2, [20]⟩] := by
  refine ⟨by decide, by decide, ?_, by decide, ?_, by decide⟩
  · intro e he
    simp only [exDelete, List.mem_cons, List.not_mem_nil, or_false] at he
    rcases he with rfl | rfl | rfl | rfl | rfl | rfl | rfl <;> exact ⟨by decide, fun _ _ hh => nomatch hh⟩
  · intro e he
    simp only [exAfter, List.mem_cons, List.not_mem_nil, or_false] at he
    rcases he with rfl | rfl | rfl | rfl | rfl <;> exact fun _ _ hh => nomatch hh

/-- C80 is violated by a publish that overlaps the delete: it found the topic before the delete and hands its message to the storage task
after it; the storage task makes the directory again.  The delete has been answered and nothing is unanswered, but the topic exists, and
after a restart it can be published to and holds that message. -/
theorem C80_violated : ∃ (sys : Defaults) (es : List Ev),
    es = creating 1 exOpts ++ [.publish 2 [20], .publishOn 2, .delete 3, .store, .publishOn 2, .store] ∧
    (Life.new.run sys es).2.drop 11 = [some .ok, some (.seq 1), none] ∧ (Life.new.run sys es).1.tasks = [] ∧ (Life.new.run sys es).1.chan = [] ∧
    ((Life.new.run sys es).1.step sys .exist).2 = some (.bool true) ∧
    (Life.new.run sys (es ++ [.restart])).1.topic = some ⟨Cfg.fromOptions Opts.default sys, [⟨1, [20]⟩], 2, []⟩ :=
  ⟨exSys, _, rfl, by decide⟩

/-! ## C81 -/

theorem live_keep {sys : Defaults} {s : Life} {k : Nat} (h : s.live = some k) (e : Ev) (h1 : e ≠ .restart) (h2 : ∀ r, e ≠ .delete r) :
    (s.step sys e).1.live = some k := by
  cases e with
  | restart => exact absurd rfl h1
  | delete r => exact absurd rfl (h2 r)
  | createOn r => simp only [Life.step, Life.createOn]; split <;> first | exact h | (simp only [Life.put, h])
  | publishOn r => simp only [Life.step, Life.publishOn]; (repeat' split) <;> exact h
  | create r o => simp only [Life.step, h]; split <;> exact h
  | publish r p => simp only [Life.step, h]; split <;> first | exact h | rfl
  | ack g n => simp only [Life.step, h]
  | saveTake => simp only [Life.step, h]; split <;> first | exact h | rfl
  | deleteOn r => simp only [Life.step]; (repeat' split) <;> exact h
  | saveSend => simp only [Life.step]; (repeat' split) <;> exact h
  | store => simp only [Life.step]; (repeat' split) <;> exact h
  | exist => exact h

theorem live_keep_run {sys : Defaults} {k : Nat} : ∀ {es : List Ev} {s : Life}, s.live = some k → (∀ e ∈ es, e ≠ .restart ∧ ∀ r, e ≠ .delete r) →
    (s.run sys es).1.live = some k
  | [], _, h, _ => h
  | e :: es, s, h, he => live_keep_run (es := es) (s := (s.step sys e).1) (live_keep h e (he e (List.mem_cons_self ..)).1 (he e (List.mem_cons_self ..)).2)
      (fun e' he' => he e' (List.mem_cons_of_mem _ he'))

/-- While the topic is being created and nobody deletes it: still being created, or there. -/
theorem making_run {sys : Defaults} {r : Nat} {o : Opts} : ∀ {es : List Ev} {s : Life}, Making sys s r o → Apart sys s es →
    (∀ e ∈ es, e ≠ .restart ∧ ∀ r, e ≠ .delete r) → Making sys (s.run sys es).1 r o ∨ (s.run sys es).1.live ≠ none
  | [], _, h, _, _ => Or.inl h
  | e :: es, s, h, ha, he => by
    rcases making_step h e ⟨ha.1, trivial⟩ (he e (List.mem_cons_self ..)).1 with hm | ⟨⟨k, hk, _⟩, _⟩
    · exact making_run (es := es) (s := (s.step sys e).1) hm ha.2 (fun e' he' => he e' (List.mem_cons_of_mem _ he'))
    · refine Or.inr ?_
      have := live_keep_run (sys := sys) (es := es) hk (fun e' he' => he e' (List.mem_cons_of_mem _ he'))
      simp only [Life.run]
      rw [this]; exact fun hh => nomatch hh

/-- C81: a create request that begins when the topic does not exist (and nothing about it is unanswered) makes, when it is answered, an
empty topic with the requested configuration, whose messages are numbered from 1, whatever topics of that name there were before. -/
theorem C81_created_partial (sys : Defaults) {a b : List Ev} {r : Nat} {o : Opts} (ha : Apart sys Life.new (a ++ [.create r o] ++ b))
    (hnone : (Life.new.run sys a).1.live = none) (hb : ∀ e ∈ b, e ≠ .restart ∧ ∀ r, e ≠ .delete r)
    (hnot : (Life.new.run sys (a ++ [.create r o] ++ b)).1.live = none)
    (hans : ((Life.new.run sys (a ++ [.create r o] ++ b)).1.step sys (.createOn r)).2 = some .ok) :
    ((Life.new.run sys (a ++ [.create r o] ++ b)).1.step sys (.createOn r)).1.topic = some ⟨Cfg.fromOptions o sys, [], 1, []⟩ := by
  obtain ⟨h1, h2⟩ := Apart.split sys (a ++ [.create r o]) _ b ha
  obtain ⟨h0, h3⟩ := Apart.split sys a _ [.create r o] h1
  have hi := Inv.reach h0
  have hrun : (Life.new.run sys (a ++ [.create r o])).1 = ((Life.new.run sys a).1.step sys (.create r o)).1 := by rw [Life.run_append_fst]; rfl
  rw [hrun] at h2
  rw [Life.run_append_fst, hrun] at hnot hans ⊢
  have hmk : Making sys ((Life.new.run sys a).1.step sys (.create r o)).1 r o := by
    rcases hi.state with ⟨k, x, d, hu⟩ | ⟨r', o', hm⟩ | hd
    · rw [hu.live] at hnone; exact nomatch hnone
    · rcases h3.1 with hh | ⟨hh, _⟩
      · rw [hm.1] at hh; exact nomatch hh
      · obtain ⟨_, _, _, t, ht, _⟩ := hm
        rw [ht] at hh; exact nomatch hh
    · rcases h3.1 with hh | ⟨hh, hs⟩
      · rw [hd.live] at hh; exact nomatch hh
      · obtain ⟨g1, g2⟩ := hd.clean hh
        have hm : ¬ mhas (Life.new.run sys a).1.tasks r = true := by rw [hh]; exact fun hh => nomatch hh
        simp only [Life.step, hd.live]
        rw [if_neg hm]
        exact ⟨rfl, hs, g1, .looked o, by rw [hh]; rfl, rfl, g2⟩
  rcases making_run hmk h2 hb with hm | hm
  · generalize (Life.run sys (Life.step sys (Life.run sys Life.new a).1 (.create r o)).1 b).1 = s at *
    rcases making_create hm r with hm' | ⟨⟨k, hk, hx, _⟩, _⟩
    · exfalso
      obtain ⟨l1, l2, l3, t, l4, l5⟩ := hm
      have hg : mget s.tasks r = some t := by rw [l4, mget_one, if_pos rfl]
      cases t with
      | insert x =>
        have := hm'.1
        simp only [Life.createOn, hg, Life.put, l1] at this
        exact nomatch this
      | loaded c ex => cases ex <;> simp [Life.step, Life.createOn, hg] at hans
      | _ => simp [Life.step, Life.createOn, hg] at hans
    · simp only [Life.step, Life.topic, hk, hx]
  · exact absurd hnot hm

/-- C81: as long as nothing overlaps, a restart at any moment brings the topic back with its configuration and with messages and group
progress of this topic only: every message that was published to it is among those brought back, or is still on its way to the
storage task; group progress is that of some earlier moment. -/
theorem C81_restart_partial (sys : Defaults) {es : List Ev} {x : Obj} (ha : Apart sys Life.new es) (hx : (Life.new.run sys es).1.topic = some x) :
    let s := (Life.new.run sys es).1
    ∃ y, (s.step sys .restart).1.topic = some y ∧ y.cfg = x.cfg ∧ (y.msgs ++ appends s.chan ++ unsent s.tasks).Perm x.msgs ∧ y.floors <:+ x.floors := by
  intro s
  have hi := Inv.reach ha
  rcases hi.state with ⟨k, o, d, hu⟩ | ⟨r, o, hm⟩ | hd
  · rw [Life.topic, hu.live] at hx
    have hox : x = o := by
      have := hu.obj
      simp only [this] at hx
      injection hx with hx; exact hx.symm
    subst hox
    refine ⟨recoverObj (loadCfg (some d) Opts.default sys) (some d), ?_, hu.cfg, hu.msgs, hu.saved⟩
    simp only [Life.step, s, hu.dir, Life.put, Life.topic, mget_mset_same]
  · rw [Life.topic, hm.1] at hx; exact nomatch hx
  · rw [Life.topic, hd.live] at hx; exact nomatch hx

/-- C81: so when no request is unanswered and the storage task has handled all commands, nothing is lost and nothing added. -/
theorem C81_durable_partial (sys : Defaults) {es : List Ev} (ha : Apart sys Life.new es) (ht : (Life.new.run sys es).1.tasks = [])
    (hc : (Life.new.run sys es).1.chan = []) :
    let s := (Life.new.run sys es).1
    (s.step sys .restart).1.topic.isSome = s.topic.isSome ∧
    ∀ x, s.topic = some x → ∃ y, (s.step sys .restart).1.topic = some y ∧ y.cfg = x.cfg ∧ y.msgs.Perm x.msgs := by
  intro s
  have hi := Inv.reach ha
  have hx : ∀ x, s.topic = some x → ∃ y, (s.step sys .restart).1.topic = some y ∧ y.cfg = x.cfg ∧ y.msgs.Perm x.msgs := by
    intro x hx
    obtain ⟨y, h1, h2, h3, _⟩ := C81_restart_partial sys ha hx
    refine ⟨y, h1, h2, ?_⟩
    rw [ht, hc] at h3
    simpa [appends, unsent] using h3
  refine ⟨?_, hx⟩
  cases hs : s.topic with
  | some x =>
    obtain ⟨y, h1, _⟩ := hx x hs
    rw [h1]
    rfl
  | none =>
    rcases hi.state with ⟨k, o, d, hu⟩ | ⟨r, o, hm⟩ | hd
    · exfalso
      have h1 := hu.live
      have h2 := hu.obj
      simp only [s, Life.topic, h1] at hs
      rw [h2] at hs; exact nomatch hs
    · obtain ⟨_, _, _, t, ht', _⟩ := hm
      rw [ht] at ht'; exact nomatch ht'
    · have := (hd.clean ht).2
      simp only [Life.step, s, this, Life.topic]

/-- Created, used, deleted, created again with other options, used. -/
def exAgain : List Ev := exBefore ++ [.delete 5] ++ exDelete ++ creating 10 ⟨none, some 50⟩ ++
  [.publish 11 [1], .publishOn 11, .publishOn 11, .publish 12 [2], .publishOn 12, .publishOn 12, .store, .store, .ack 4 1, .saveTake, .saveSend, .store, .ack 4 2]
example : Apart exSys Life.new exAgain ∧ (Life.new.run exSys exAgain).1.tasks = [] ∧ (Life.new.run exSys exAgain).1.chan = [] ∧
    (Life.new.run exSys exAgain).1.topic = some ⟨⟨some 7, some 50⟩, [⟨1, [1]⟩, ⟨2, [2]⟩], 3, [(4, 2), (4, 1)]⟩ ∧
    (Life.new.run exSys (exAgain ++ [.restart])).1.topic = some ⟨⟨some 7, some 50⟩, [⟨1, [1]⟩, ⟨2, [2]⟩], 3, [(4, 1)]⟩ := by decide
example : Apart exSys Life.new (exBefore ++ [.delete 5] ++ exDelete ++ [.create 10 ⟨none, some 50⟩] ++ (List.replicate 6 (.createOn 10) ++ [.publish 11 [1]])) ∧
    (Life.new.run exSys (exBefore ++ [.delete 5] ++ exDelete)).1.live = none ∧
    (Life.new.run exSys (exBefore ++ [.delete 5] ++ exDelete ++ [.create 10 ⟨none, some 50⟩] ++ (List.replicate 6 (.createOn 10) ++ [.publish 11 [1]]))).1.live = none ∧
    ((Life.new.run exSys (exBefore ++ [.delete 5] ++ exDelete ++ [.create 10 ⟨none, some 50⟩] ++ (List.replicate 6 (.createOn 10) ++ [.publish 11 [1]]))).1.step exSys (.createOn 10)).2 = some .ok := by decide

/-- C81 is violated by two overlapping creates with different options: the topic works with the options of the one, after a restart with
those of the other. -/
theorem C81_violated_creates : ∃ (sys : Defaults) (es : List Ev),
    es = [.create 1 ⟨some 5, none⟩, .create 2 ⟨some 6, none⟩, .createOn 1, .createOn 1, .createOn 2, .createOn 2, .createOn 1, .createOn 1, .createOn 2, .createOn 2,
      .createOn 1, .createOn 1, .createOn 1, .createOn 2, .createOn 2, .createOn 2] ∧
    (Life.new.run sys es).1.tasks = [] ∧ (Life.new.run sys es).1.topic.map (fun x => x.cfg.maxAge) = some (some 5) ∧
    (Life.new.run sys (es ++ [.restart])).1.topic.map (fun x => x.cfg.maxAge) = some (some 6) :=
  ⟨exSys, _, rfl, by decide⟩

/-- C81 is violated by a create that overlaps a delete: the new topic holds the messages of the deleted one; then the storage task
removes its directory, and after a restart the topic, whose creation was answered, does not exist. -/
theorem C81_violated_delete : ∃ (sys : Defaults) (es : List Ev),
    es = creating 1 exOpts ++ [.publish 2 [20], .publishOn 2, .publishOn 2, .store, .delete 3] ++ (Ev.create 4 exOpts :: List.replicate 6 (.createOn 4)) ++ [.store] ∧
    (Life.new.run sys es).1.tasks = [] ∧ (Life.new.run sys es).1.chan = [] ∧
    (Life.new.run sys es).1.topic.map Obj.msgs = some [⟨1, [20]⟩] ∧ (Life.new.run sys (es ++ [.restart])).1.topic = none :=
  ⟨exSys, _, rfl, by decide⟩

/-- C81 is violated by a create that overlaps a delete: the configuration is lost.  The first publish makes the directory again, without
the configuration file. -/
theorem C81_violated_config : ∃ (sys : Defaults) (es : List Ev),
    es = creating 1 exOpts ++ [.delete 3] ++ (Ev.create 4 exOpts :: List.replicate 6 (.createOn 4)) ++ [.store, .publish 5 [50], .publishOn 5, .publishOn 5, .store] ∧
    (Life.new.run sys es).1.tasks = [] ∧ (Life.new.run sys es).1.chan = [] ∧
    (Life.new.run sys es).1.topic.map Obj.cfg = some ⟨some 5, none⟩ ∧ (Life.new.run sys (es ++ [.restart])).1.topic.map Obj.cfg = some ⟨some 7, some 100⟩ :=
  ⟨exSys, _, rfl, by decide⟩

/-- C81 is violated by the task that saves the groups: the progress it took before the delete is written into the directory of the new
topic, and after a restart the groups of the new topic skip its messages. -/
theorem C81_violated_groups : ∃ (sys : Defaults) (es : List Ev),
    es = creating 1 exOpts ++ [.ack 4 9, .saveTake, .delete 3, .store] ++ creating 5 exOpts ++ [.saveSend, .store] ∧
    (Life.new.run sys es).1.tasks = [] ∧ (Life.new.run sys es).1.topic.map Obj.floors = some [] ∧
    (Life.new.run sys (es ++ [.restart])).1.topic.map Obj.floors = some [(4, 9)] :=
  ⟨exSys, _, rfl, by decide⟩

end Verif.StreamLife
