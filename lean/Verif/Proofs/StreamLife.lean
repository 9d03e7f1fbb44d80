import Verif.Spec.StreamLife

/-!
# Overlapping requests that create, delete and use one stream topic: proofs
-/

namespace Verif.StreamLife

/-- The stages of a create request that nothing interferes with. -/
def Building (sys : Defaults) (o : Opts) (d : Option Dir) : Task → Prop
  | .looked o' => o' = o ∧ d = none
  | .known o' ex => o' = o ∧ d = none ∧ ex = false
  | .loaded c ex => c = Cfg.fromOptions o sys ∧ d = none ∧ ex = false
  | .write c => c = Cfg.fromOptions o sys ∧ d = some Dir.empty
  | .build c => c = Cfg.fromOptions o sys ∧ d = some ⟨some c, [], []⟩
  | .recover c => c = Cfg.fromOptions o sys ∧ d = some ⟨some c, [], []⟩
  | .insert x => x = ⟨Cfg.fromOptions o sys, [], 1, []⟩ ∧ d = some ⟨some (Cfg.fromOptions o sys), [], []⟩
  | _ => False

/-- A create request is under way and nothing else. -/
def Making (sys : Defaults) (s : Life) (r : Nat) (o : Opts) : Prop :=
  s.live = none ∧ s.saving = none ∧ s.chan = [] ∧ ∃ t, s.tasks = [(r, t)] ∧ Building sys o s.dir t

/-- A new topic with the requested configuration, in memory and on disk. -/
def Made (sys : Defaults) (s : Life) (o : Opts) : Prop :=
  ∃ k, s.live = some k ∧ mget s.objs k = some ⟨Cfg.fromOptions o sys, [], 1, []⟩ ∧ s.dir = some ⟨some (Cfg.fromOptions o sys), [], []⟩ ∧
    s.tasks = [] ∧ s.chan = [] ∧ s.saving = none

theorem mget_one {r r' : Nat} {t : Task} : mget [(r, t)] r' = if r = r' then some t else none := by
  rw [mget_cons]; rfl

theorem mset_one (r : Nat) (t t' : Task) : mset [(r, t)] r t' = [(r, t')] := by simp [mset, mdel]
theorem mdel_one (r : Nat) (t : Task) : mdel [(r, t)] r = [] := by simp [mdel]

theorem making_create {sys : Defaults} {s : Life} {r : Nat} {o : Opts} (h : Making sys s r o) (r' : Nat) :
    Making sys (s.createOn sys r').1 r o ∨ (Made sys (s.createOn sys r').1 o ∧ (s.createOn sys r').2 = some .ok) := by
  obtain ⟨h1, h2, h3, t, h4, h5⟩ := h
  by_cases hr : r = r'
  · subst hr
    have hg : mget s.tasks r = some t := by rw [h4, mget_one, if_pos rfl]
    cases t with
    | looked o' =>
      obtain ⟨rfl, hd⟩ := h5
      refine Or.inl ?_
      simp only [Life.createOn, hg]
      refine ⟨h1, h2, h3, _, by rw [h4, mset_one], ?_⟩
      exact ⟨rfl, hd, by rw [hd]; rfl⟩
    | known o' ex =>
      obtain ⟨rfl, hd, rfl⟩ := h5
      refine Or.inl ?_
      simp only [Life.createOn, hg]
      refine ⟨h1, h2, h3, _, by rw [h4, mset_one], ?_⟩
      exact ⟨by rw [hd]; rfl, hd, rfl⟩
    | loaded c ex =>
      obtain ⟨rfl, hd, rfl⟩ := h5
      refine Or.inl ?_
      simp only [Life.createOn, hg]
      refine ⟨h1, h2, h3, _, by rw [h4, mset_one], ?_⟩
      exact ⟨rfl, by rw [hd]; rfl⟩
    | write c =>
      obtain ⟨rfl, hd⟩ := h5
      refine Or.inl ?_
      simp only [Life.createOn, hg]
      refine ⟨h1, h2, h3, _, by rw [h4, mset_one], ?_⟩
      exact ⟨rfl, by rw [hd]; rfl⟩
    | build c =>
      obtain ⟨rfl, hd⟩ := h5
      refine Or.inl ?_
      simp only [Life.createOn, hg]
      refine ⟨h1, h2, h3, _, by rw [h4, mset_one], ?_⟩
      exact ⟨rfl, by rw [hd]; rfl⟩
    | recover c =>
      obtain ⟨rfl, hd⟩ := h5
      refine Or.inl ?_
      simp only [Life.createOn, hg]
      refine ⟨h1, h2, h3, _, by rw [h4, mset_one], ?_⟩
      exact ⟨by rw [hd]; rfl, hd⟩
    | insert x =>
      obtain ⟨rfl, hd⟩ := h5
      refine Or.inr ?_
      simp only [Life.createOn, hg, Life.put, h1]
      exact ⟨⟨s.nextObj, rfl, by rw [mget_mset_same], hd, by rw [h4, mdel_one], h3, h2⟩, trivial⟩
    | look => exact h5.elim
    | drop => exact h5.elim
    | found => exact h5.elim
    | appended => exact h5.elim
  · have hg : mget s.tasks r' = none := by rw [h4, mget_one, if_neg hr]
    have : (s.createOn sys r').1 = s := by simp only [Life.createOn, hg]
    rw [this]
    exact Or.inl ⟨h1, h2, h3, t, h4, h5⟩

theorem Building.notDelete {sys : Defaults} {o : Opts} {d : Option Dir} {t : Task} (h : Building sys o d t) : t.isDelete = false := by
  cases t <;> first | rfl | exact h.elim

/-- While a create request is under way, nothing else changes anything; a restart aside. -/
theorem making_step {sys : Defaults} {s : Life} {r : Nat} {o : Opts} (h : Making sys s r o) (e : Ev) (ha : Apart sys s [e]) (hr : e ≠ .restart) :
    Making sys (s.step sys e).1 r o ∨ (Made sys (s.step sys e).1 o ∧ (s.step sys e).2 = some .ok) := by
  have h' := h
  obtain ⟨h1, h2, h3, t, h4, h5⟩ := h
  cases e with
  | create r' o' =>
    rcases ha.1 with ha | ⟨ha, _⟩
    · rw [h1] at ha; exact nomatch ha
    · rw [h4] at ha; exact nomatch ha
  | createOn r' => exact making_create h' r'
  | delete r' =>
    have := ha.1.1
    rw [h4] at this
    simp [h5.notDelete] at this
  | deleteOn r' =>
    have : (s.step sys (.deleteOn r')).1 = s := by
      simp only [Life.step, h4, mget_one]
      by_cases hrr : r = r'
      · rw [if_pos hrr]
        cases t <;> first | rfl | exact h5.elim
      · rw [if_neg hrr]
    rw [this]; exact Or.inl h'
  | publish r' p =>
    have : (s.step sys (.publish r' p)).1 = s := by
      simp only [Life.step, h1]; split <;> rfl
    rw [this]; exact Or.inl h'
  | publishOn r' =>
    have : (s.step sys (.publishOn r')).1 = s := by
      simp only [Life.step, Life.publishOn, h4, mget_one]
      by_cases hrr : r = r'
      · rw [if_pos hrr]
        cases t <;> first | rfl | exact h5.elim
      · rw [if_neg hrr]
    rw [this]; exact Or.inl h'
  | ack g n => simp only [Life.step, h1]; exact Or.inl h'
  | saveTake => simp only [Life.step, h1]; exact Or.inl h'
  | saveSend => simp only [Life.step, h2]; exact Or.inl h'
  | store => simp only [Life.step, h3]; exact Or.inl h'
  | exist => exact Or.inl h'
  | restart => exact absurd rfl hr

/-- The numbers of the delete requests in commands. -/
def drops : List Cmd → List Nat
  | [] => []
  | .drop r :: t => r :: drops t
  | _ :: t => drops t

theorem drops_append : ∀ (a b : List Cmd), drops (a ++ b) = drops a ++ drops b
  | [], _ => rfl
  | c :: a, b => by cases c <;> simp only [List.cons_append, drops, drops_append a b]

theorem mem_drops {r : Nat} : ∀ {l : List Cmd}, r ∈ drops l ↔ Cmd.drop r ∈ l
  | [] => by simp [drops]
  | c :: l => by cases c <;> simp [drops, mem_drops (l := l)]

theorem appends_append : ∀ (a b : List Cmd), appends (a ++ b) = appends a ++ appends b
  | [], _ => rfl
  | c :: a, b => by cases c <;> simp only [List.cons_append, appends, appends_append a b]

theorem unsent_append : ∀ (a b : List (Nat × Task)), unsent (a ++ b) = unsent a ++ unsent b
  | [], _ => rfl
  | (k, t) :: a, b => by cases t <;> simp only [List.cons_append, unsent, unsent_append a b]

/-- Taking one request out. -/
theorem unsent_mdel : ∀ {l : List (Nat × Task)} {r : Nat} {t : Task}, MWF l → mget l r = some t →
    (unsent l).Perm (unsent [(r, t)] ++ unsent (mdel l r))
  | [], _, _, _, h => nomatch h
  | (k, x) :: l, r, t, hw, h => by
    have hw' : MWF l := (List.nodup_cons.1 hw).2
    rw [mget_cons] at h
    by_cases hk : k = r
    · subst hk
      rw [if_pos rfl] at h
      injection h with h
      subst h
      have hn : k ∉ mkeys l := (List.nodup_cons.1 hw).1
      have : mdel ((k, x) :: l) k = l := by
        have := mdel_of_not_mem hn
        simp only [mdel] at this ⊢
        rw [List.filter_cons_of_neg (by simp)]
        exact this
      rw [this]
      have : (k, x) :: l = [(k, x)] ++ l := rfl
      rw [this, unsent_append]
    · rw [if_neg hk] at h
      have ih := unsent_mdel hw' h
      have : mdel ((k, x) :: l) r = (k, x) :: mdel l r := by simp [mdel, hk]
      rw [this]
      have e1 : (k, x) :: l = [(k, x)] ++ l := rfl
      have e2 : (k, x) :: mdel l r = [(k, x)] ++ mdel l r := rfl
      rw [e1, e2, unsent_append, unsent_append]
      refine (List.Perm.append_left _ ih).trans ?_
      rw [← List.append_assoc, ← List.append_assoc]
      exact List.Perm.append_right _ List.perm_append_comm

/-- The topic exists. -/
structure Up (sys : Defaults) (s : Life) (k : Nat) (o : Obj) (d : Dir) : Prop where
  live : s.live = some k
  obj : mget s.objs k = some o
  dir : s.dir = some d
  cfg : d.cfg.getD (Cfg.fromOptions Opts.default sys) = o.cfg
  tasks : ∀ r t, mget s.tasks r = some t → t.isPublish = true ∧ ∀ j p, t = .found j p → j = k
  chan : drops s.chan = []
  msgs : (d.recs ++ appends s.chan ++ unsent s.tasks).Perm o.msgs
  saved : d.floors <:+ o.floors
  sent : ∀ f, .save f ∈ s.chan → f <:+ o.floors
  taken : ∀ f, s.saving = some f → f <:+ o.floors

/-- The topic has been deleted, or is being deleted. -/
structure Down (s : Life) : Prop where
  live : s.live = none
  saving : s.saving = none
  tasks : ∀ r t, mget s.tasks r = some t → t.isDelete = true
  last : s.chan = [] ∨ ∃ r, s.chan.getLast? = some (.drop r)
  waits : ∀ r ∈ drops s.chan, mget s.tasks r = some .drop
  nodup : (drops s.chan).Nodup
  clears : s.chan.foldl Cmd.apply s.dir = none

structure Inv (sys : Defaults) (s : Life) : Prop where
  wf : MWF s.tasks
  fresh : ∀ k x, mget s.objs k = some x → k < s.nextObj
  state : (∃ k o d, Up sys s k o d) ∨ (∃ r o, Making sys s r o) ∨ Down s

theorem Inv.init (sys : Defaults) : Inv sys Life.new where
  wf := MWF.nil
  fresh := fun _ _ h => nomatch h
  state := Or.inr (Or.inr ⟨rfl, rfl, (fun _ _ h => nomatch h), Or.inl rfl, (fun _ h => nomatch h), List.nodup_nil, rfl⟩)

/-- With no request unanswered, a topic that does not exist has left nothing. -/
theorem Down.clean {s : Life} (h : Down s) (ht : s.tasks = []) : s.chan = [] ∧ s.dir = none := by
  have hc : s.chan = [] := by
    rcases h.last with hl | ⟨r, hl⟩
    · exact hl
    · have : r ∈ drops s.chan := mem_drops.2 (List.mem_of_getLast? hl)
      have := h.waits r this
      rw [ht] at this; exact nomatch this
  have := h.clears
  rw [hc] at this
  exact ⟨hc, this⟩

theorem Inv.restart {sys : Defaults} {s : Life} : Inv sys (s.step sys .restart).1 := by
  simp only [Life.step]
  cases hd : s.dir with
  | none =>
    refine ⟨MWF.nil, (fun _ _ h => nomatch h), Or.inr (Or.inr ?_)⟩
    exact ⟨rfl, rfl, (fun _ _ h => nomatch h), Or.inl rfl, (fun _ h => nomatch h), List.nodup_nil, rfl⟩
  | some d =>
    refine ⟨MWF.nil, ?_, Or.inl ⟨s.nextObj, recoverObj (loadCfg (some d) Opts.default sys) (some d), d, ?_⟩⟩
    · intro k x hx
      simp only [Life.put, mget_mset] at hx ⊢
      split at hx
      · next h => subst h; exact Nat.lt_succ_self _
      · exact nomatch hx
    · refine ⟨rfl, by simp only [Life.put]; rw [mget_mset_same], rfl, rfl, (fun _ _ h => nomatch h), rfl, ?_, List.suffix_refl _, (fun _ h => nomatch h), (fun _ h => nomatch h)⟩
      simp only [Life.put, appends, unsent, List.append_nil]
      exact List.Perm.refl _

theorem wf_step {sys : Defaults} {s : Life} (h : MWF s.tasks) (e : Ev) : MWF (s.step sys e).1.tasks := by
  cases e <;> simp only [Life.step, Life.createOn, Life.publishOn, Life.put] <;> (repeat' split) <;>
    first | exact h | exact h.mset _ _ | exact h.mdel _ | exact MWF.nil

theorem fresh_mset {m : List (Nat × Obj)} {n k : Nat} {x : Obj} (h : ∀ k x, mget m k = some x → k < n) (hk : k < n) :
    ∀ j y, mget (mset m k x) j = some y → j < n := by
  intro j y hy
  rw [mget_mset] at hy
  split at hy
  · next hj => subst hj; exact hk
  · exact h j y hy

theorem fresh_put {s : Life} {x : Obj} (h : ∀ k x, mget s.objs k = some x → k < s.nextObj) :
    ∀ k y, mget (s.put x).objs k = some y → k < (s.put x).nextObj := by
  unfold Life.put
  split
  · exact h
  · exact fresh_mset (fun k x hx => Nat.lt_succ_of_lt (h k x hx)) (Nat.lt_succ_self _)

theorem fresh_step {sys : Defaults} {s : Life} (h : ∀ k x, mget s.objs k = some x → k < s.nextObj) (e : Ev) :
    ∀ k x, mget (s.step sys e).1.objs k = some x → k < (s.step sys e).1.nextObj := by
  cases e with
  | createOn r =>
    simp only [Life.step, Life.createOn]
    split <;> first | exact h | exact fresh_put (s := { s with tasks := mdel s.tasks r }) h
  | publishOn r =>
    simp only [Life.step, Life.publishOn]
    split
    · next k p _ =>
      cases hx : mget s.objs k with
      | none => exact h
      | some x => exact fresh_mset h (h k x hx)
    · exact h
    · exact h
  | ack g n =>
    simp only [Life.step]
    split
    · exact h
    · next k _ =>
      intro j y hy
      rw [mget_mupd] at hy
      split at hy
      · obtain ⟨y0, hy0, _⟩ := Option.map_eq_some_iff.1 hy
        exact h j y0 hy0
      · exact h j y hy
  | restart =>
    simp only [Life.step]
    split
    · exact fun _ _ hh => nomatch hh
    · exact fresh_put (s := { s with live := none, objs := [], chan := [], tasks := [], saving := none }) (fun _ _ hh => nomatch hh)
  | _ => simp only [Life.step] <;> (repeat' split) <;> exact h

theorem Made.up {sys : Defaults} {s : Life} {o : Opts} (h : Made sys s o) : ∃ k x d, Up sys s k x d := by
  obtain ⟨k, h1, h2, h3, h4, h5, h6⟩ := h
  refine ⟨k, _, _, h1, h2, h3, rfl, ?_, ?_, ?_, List.suffix_refl _, ?_, ?_⟩
  · rw [h4]; exact fun _ _ hh => nomatch hh
  · rw [h5]; rfl
  · rw [h4, h5]; exact List.Perm.refl _
  · rw [h5]; exact fun _ hh => nomatch hh
  · rw [h6]; exact fun _ hh => nomatch hh

theorem mdel_new {l : List (Nat × Task)} {r : Nat} (h : ¬ mhas l r = true) : mdel l r = l :=
  mdel_of_not_mem (fun hh => h (mhas_iff.2 hh))

theorem mget_new {l : List (Nat × Task)} {r : Nat} (h : ¬ mhas l r = true) : mget l r = none := by
  cases hg : mget l r with
  | none => rfl
  | some t => exact absurd (by unfold mhas; rw [hg]; rfl) h

/-- An event while the topic exists, other than a restart. -/
theorem up_step {sys : Defaults} {s : Life} {k : Nat} {o : Obj} {d : Dir} (hw : MWF s.tasks) (h : Up sys s k o d) (e : Ev) (ha : Apart sys s [e]) (hr : e ≠ .restart) :
    (∃ o' d', Up sys (s.step sys e).1 k o' d') ∨ (Down (s.step sys e).1 ∧ ∃ r, e = .delete r) := by
  cases e with
  | create r op =>
    refine Or.inl ⟨o, d, ?_⟩
    simp only [Life.step, h.live]
    split <;> exact h
  | createOn r =>
    refine Or.inl ⟨o, d, ?_⟩
    have : (s.createOn sys r).1 = s := by
      cases hg : mget s.tasks r with
      | none => simp only [Life.createOn, hg]
      | some t =>
        have := (h.tasks r t hg).1
        cases t <;> first | (simp only [Life.createOn, hg]; done) | cases this
    simp only [Life.step, this]
    exact h
  | delete r =>
    simp only [Life.step, h.live]
    split
    · exact Or.inl ⟨o, d, h⟩
    · next hm =>
      refine Or.inr ⟨?_, r, rfl⟩
      have hno : ∀ r' t, mget s.tasks r' = some t → False := by
        intro r' t hg
        have h1 := (h.tasks r' t hg).1
        have h2 := List.all_eq_true.1 ha.1.1 _ (mget_some_mem hg)
        cases t <;> simp [Task.isPublish, Task.isDelete] at h1 h2
      have hd : drops (s.chan ++ [.drop r]) = [r] := by rw [drops_append, h.chan]; rfl
      refine ⟨rfl, ha.1.2, ?_, Or.inr ⟨r, by simp⟩, ?_, ?_, ?_⟩
      · intro r' t hg
        rw [mget_mset] at hg
        split at hg
        · injection hg with hg; subst hg; rfl
        · exact (hno r' t hg).elim
      · intro r' hr'
        rw [hd] at hr'
        rw [List.mem_singleton.1 hr', mget_mset_same]
      · rw [hd]; simp
      · simp [List.foldl_append, Cmd.apply]
  | deleteOn r =>
    refine Or.inl ⟨o, d, ?_⟩
    simp only [Life.step]
    cases hg : mget s.tasks r with
    | none => exact h
    | some t =>
      have := (h.tasks r t hg).1
      cases t <;> first | exact h | cases this
  | publish r p =>
    refine Or.inl ⟨o, d, ?_⟩
    simp only [Life.step, h.live]
    split
    · exact h
    · next hm =>
      refine ⟨h.live ▸ rfl, h.obj, h.dir, h.cfg, ?_, h.chan, ?_, h.saved, h.sent, h.taken⟩
      · intro r' t hg
        rw [mget_mset] at hg
        split at hg
        · injection hg with hg; subst hg
          refine ⟨rfl, ?_⟩
          intro j p' hh; injection hh with hh; exact hh.symm
        · exact h.tasks r' t hg
      · simp only [mset, unsent_append, mdel_new hm, unsent, List.append_nil]
        exact h.msgs
  | publishOn r =>
    simp only [Life.step, Life.publishOn]
    cases hg : mget s.tasks r with
    | none => exact Or.inl ⟨o, d, h⟩
    | some t =>
      cases t with
      | found j p =>
        have hj := (h.tasks r _ hg).2 j p rfl
        subst hj
        simp only [h.obj]
        refine Or.inl ⟨{ o with msgs := o.msgs ++ [⟨o.next, p⟩], next := o.next + 1 }, d, h.live, by rw [mget_mset_same], h.dir, h.cfg, ?_, h.chan, ?_, h.saved, h.sent, h.taken⟩
        · intro r' t hg'
          rw [mget_mset] at hg'
          split at hg'
          · injection hg' with hg'; subst hg'
            exact ⟨rfl, fun _ _ hh => nomatch hh⟩
          · exact h.tasks r' t hg'
        · have h1 := unsent_mdel hw hg
          simp only [unsent, List.nil_append] at h1
          simp only [mset, unsent_append, unsent]
          rw [← List.append_assoc]
          refine List.Perm.append_right _ ?_
          exact (List.Perm.append_left _ h1.symm).trans h.msgs
      | appended m =>
        refine Or.inl ⟨o, d, h.live, h.obj, h.dir, h.cfg, ?_, ?_, ?_, h.saved, ?_, h.taken⟩
        · intro r' t hg'
          rw [mget_mdel] at hg'
          split at hg'
          · exact nomatch hg'
          · exact h.tasks r' t hg'
        · rw [drops_append, h.chan]; rfl
        · have h1 := unsent_mdel hw hg
          simp only [unsent] at h1
          rw [appends_append]
          simp only [appends]
          refine List.Perm.trans ?_ h.msgs
          rw [← List.append_assoc, List.append_assoc _ [m]]
          exact List.Perm.append_left _ h1.symm
        · intro f hf
          rcases List.mem_append.1 hf with hf | hf
          · exact h.sent f hf
          · simp at hf
      | _ => exact Or.inl ⟨o, d, h⟩
  | ack g n =>
    simp only [Life.step, h.live]
    refine Or.inl ⟨{ o with floors := (g, n) :: o.floors }, d, h.live ▸ rfl, ?_, h.dir, h.cfg, h.tasks, h.chan, h.msgs, ?_, ?_, ?_⟩
    · rw [mget_mupd, if_pos rfl, h.obj]; rfl
    · exact h.saved.trans (List.suffix_cons _ _)
    · exact fun f hf => (h.sent f hf).trans (List.suffix_cons _ _)
    · exact fun f hf => (h.taken f hf).trans (List.suffix_cons _ _)
  | saveTake =>
    simp only [Life.step, h.live]
    split
    · exact Or.inl ⟨o, d, h⟩
    · refine Or.inl ⟨o, d, h.live ▸ rfl, h.obj, h.dir, h.cfg, h.tasks, h.chan, h.msgs, h.saved, h.sent, ?_⟩
      intro f hf
      rw [h.obj] at hf
      injection hf with hf
      rw [← hf]; exact List.suffix_refl _
  | saveSend =>
    simp only [Life.step]
    cases hs : s.saving with
    | none => exact Or.inl ⟨o, d, h⟩
    | some f =>
      refine Or.inl ⟨o, d, h.live, h.obj, h.dir, h.cfg, h.tasks, ?_, ?_, h.saved, ?_, (fun _ hh => nomatch hh)⟩
      · rw [drops_append, h.chan]; rfl
      · rw [appends_append]; simp only [appends, List.append_nil]; exact h.msgs
      · intro f' hf'
        rcases List.mem_append.1 hf' with hf' | hf'
        · exact h.sent f' hf'
        · simp at hf'; subst hf'; exact h.taken _ hs
  | store =>
    simp only [Life.step]
    cases hc : s.chan with
    | nil => exact Or.inl ⟨o, d, h⟩
    | cons c t =>
      have hch := h.chan
      have hm := h.msgs
      have hsent := h.sent
      rw [hc] at hch hm hsent
      cases c with
      | append m =>
        refine Or.inl ⟨o, { d with recs := d.recs ++ [m] }, h.live, h.obj, ?_, h.cfg, h.tasks, hch, ?_, h.saved, ?_, h.taken⟩
        · simp only [Cmd.apply, h.dir, Option.getD_some]
        · simpa [appends] using hm
        · exact fun f hf => hsent f (List.mem_cons_of_mem _ hf)
      | drop r => exact nomatch hch
      | save f =>
        refine Or.inl ⟨o, { d with floors := f }, h.live, h.obj, ?_, h.cfg, h.tasks, hch, hm, ?_, ?_, h.taken⟩
        · simp only [Cmd.apply, h.dir, Option.map_some]
        · exact hsent f (List.mem_cons_self ..)
        · exact fun f hf => hsent f (List.mem_cons_of_mem _ hf)
  | exist => exact Or.inl ⟨o, d, h⟩
  | restart => exact absurd rfl hr

theorem last_tail {c : Cmd} {t : List Cmd} (h : (c :: t) = [] ∨ ∃ r, (c :: t).getLast? = some (.drop r)) : t = [] ∨ ∃ r, t.getLast? = some (.drop r) := by
  cases t with
  | nil => exact Or.inl rfl
  | cons x t =>
    rcases h with h | ⟨r, h⟩
    · exact nomatch h
    · refine Or.inr ⟨r, ?_⟩
      rw [List.getLast?_cons_cons] at h; exact h

/-- An event while the topic does not exist, other than a restart. -/
theorem down_step {sys : Defaults} {s : Life} (h : Down s) (e : Ev) (ha : Apart sys s [e]) (hr : e ≠ .restart) :
    Down (s.step sys e).1 ∨ ∃ r o, Making sys (s.step sys e).1 r o ∧ e = .create r o := by
  cases e with
  | create r o =>
    rcases ha.1 with hl | ⟨ht, _⟩
    · rw [h.live] at hl; exact nomatch hl
    · obtain ⟨hc, hd⟩ := h.clean ht
      have hm : ¬ mhas s.tasks r = true := by rw [ht]; exact fun hh => nomatch hh
      simp only [Life.step, h.live]
      rw [if_neg hm]
      exact Or.inr ⟨r, o, ⟨rfl, h.saving, hc, .looked o, by rw [ht]; rfl, rfl, hd⟩, rfl⟩
  | createOn r =>
    have : (s.createOn sys r).1 = s := by
      cases hg : mget s.tasks r with
      | none => simp only [Life.createOn, hg]
      | some t =>
        have := h.tasks r t hg
        cases t <;> first | (simp only [Life.createOn, hg]; done) | cases this
    simp only [Life.step, this]
    exact Or.inl h
  | delete r =>
    simp only [Life.step, h.live]
    split
    · exact Or.inl h
    · next hm =>
      refine Or.inl ⟨rfl, h.saving, ?_, h.last, ?_, h.nodup, h.clears⟩
      · intro r' t hg
        rw [mget_mset] at hg
        split at hg
        · injection hg with hg; subst hg; rfl
        · exact h.tasks r' t hg
      · intro r' hr'
        have := h.waits r' hr'
        rw [mget_mset, if_neg]
        · exact this
        · intro he; subst he; rw [mget_new hm] at this; exact nomatch this
  | deleteOn r =>
    simp only [Life.step]
    cases hg : mget s.tasks r with
    | none => exact Or.inl h
    | some t =>
      have hdel := h.tasks r t hg
      cases t with
      | look =>
        have hnr : r ∉ drops s.chan := by
          intro hh
          have := h.waits r hh
          rw [hg] at this; exact nomatch this
        simp only []
        split
        · refine Or.inl ⟨h.live, h.saving, ?_, Or.inr ⟨r, by simp⟩, ?_, ?_, ?_⟩
          · intro r' t hg'
            rw [mget_mset] at hg'
            split at hg'
            · injection hg' with hg'; subst hg'; rfl
            · exact h.tasks r' t hg'
          · intro r' hr'
            rw [drops_append] at hr'
            rw [mget_mset]
            split
            · rfl
            · next hne =>
              rcases List.mem_append.1 hr' with hr' | hr'
              · exact h.waits r' hr'
              · exact absurd (List.mem_singleton.1 hr') hne
          · rw [drops_append]
            refine List.nodup_append.2 ⟨h.nodup, by simp [drops], ?_⟩
            intro a ha' b hb hab
            simp only [drops, List.mem_singleton] at hb
            subst hb; subst hab; exact hnr ha'
          · simp [List.foldl_append, Cmd.apply]
        · refine Or.inl ⟨h.live, h.saving, ?_, h.last, ?_, h.nodup, h.clears⟩
          · intro r' t hg'
            rw [mget_mdel] at hg'
            split at hg'
            · exact nomatch hg'
            · exact h.tasks r' t hg'
          · intro r' hr'
            rw [mget_mdel, if_neg]
            · exact h.waits r' hr'
            · intro he; subst he; exact hnr hr'
      | _ => first | (exact Or.inl h) | cases hdel
  | publish r p =>
    simp only [Life.step, h.live]
    split <;> exact Or.inl h
  | publishOn r =>
    simp only [Life.step, Life.publishOn]
    cases hg : mget s.tasks r with
    | none => exact Or.inl h
    | some t =>
      have hdel := h.tasks r t hg
      cases t <;> first | (exact Or.inl h) | cases hdel
  | ack g n => simp only [Life.step, h.live]; exact Or.inl h
  | saveTake => simp only [Life.step, h.live]; exact Or.inl h
  | saveSend => simp only [Life.step, h.saving]; exact Or.inl h
  | store =>
    simp only [Life.step]
    cases hc : s.chan with
    | nil => exact Or.inl h
    | cons c t =>
      have hlast := h.last
      have hwaits := h.waits
      have hnd := h.nodup
      have hcl := h.clears
      rw [hc] at hlast hwaits hnd hcl
      cases c with
      | drop r =>
        refine Or.inl ⟨h.live, h.saving, ?_, last_tail hlast, ?_, (List.nodup_cons.1 hnd).2, hcl⟩
        · intro r' t hg'
          rw [mget_mdel] at hg'
          split at hg'
          · exact nomatch hg'
          · exact h.tasks r' t hg'
        · intro r' hr'
          rw [mget_mdel, if_neg]
          · exact hwaits r' (List.mem_cons_of_mem _ hr')
          · intro he; subst he; exact (List.nodup_cons.1 hnd).1 hr'
      | append m => exact Or.inl ⟨h.live, h.saving, h.tasks, last_tail hlast, hwaits, hnd, hcl⟩
      | save f => exact Or.inl ⟨h.live, h.saving, h.tasks, last_tail hlast, hwaits, hnd, hcl⟩
  | exist => exact Or.inl h
  | restart => exact absurd rfl hr

theorem Inv.step {sys : Defaults} {s : Life} (h : Inv sys s) (e : Ev) (ha : Apart sys s [e]) : Inv sys (s.step sys e).1 := by
  by_cases hr : e = .restart
  · subst hr; exact Inv.restart
  · refine ⟨wf_step h.wf e, fresh_step h.fresh e, ?_⟩
    rcases h.state with ⟨k, o, d, hu⟩ | ⟨r, o, hm⟩ | hd
    · rcases up_step h.wf hu e ha hr with ⟨o', d', hu'⟩ | ⟨hd', _⟩
      · exact Or.inl ⟨k, o', d', hu'⟩
      · exact Or.inr (Or.inr hd')
    · rcases making_step hm e ha hr with hm' | ⟨hm', _⟩
      · exact Or.inr (Or.inl ⟨r, o, hm'⟩)
      · exact Or.inl hm'.up
    · rcases down_step hd e ha hr with hd' | ⟨r, o, hm', _⟩
      · exact Or.inr (Or.inr hd')
      · exact Or.inr (Or.inl ⟨r, o, hm'⟩)

theorem Apart.split (sys : Defaults) : ∀ (a : List Ev) (s : Life) (b : List Ev), Apart sys s (a ++ b) →
    Apart sys s a ∧ Apart sys (s.run sys a).1 b
  | [], _, _, h => ⟨trivial, h⟩
  | _ :: a, _, b, h => ⟨⟨h.1, (Apart.split sys a _ b h.2).1⟩, (Apart.split sys a _ b h.2).2⟩

theorem Inv.run {sys : Defaults} : ∀ {es : List Ev} {s : Life}, Inv sys s → Apart sys s es → Inv sys (s.run sys es).1
  | [], _, h, _ => h
  | e :: es, s, h, ha => Inv.run (es := es) (s := (s.step sys e).1) (h.step e ⟨ha.1, trivial⟩) ha.2

theorem Life.run_append_fst (sys : Defaults) : ∀ (a : List Ev) (s : Life) (b : List Ev), (s.run sys (a ++ b)).1 = ((s.run sys a).1.run sys b).1
  | [], _, _ => rfl
  | e :: a, s, b => Life.run_append_fst sys a _ b

theorem Inv.reach {sys : Defaults} {es : List Ev} (ha : Apart sys Life.new es) : Inv sys (Life.new.run sys es).1 := Inv.run (Inv.init sys) ha

end Verif.StreamLife
