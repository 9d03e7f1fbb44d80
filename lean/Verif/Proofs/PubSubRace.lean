import Verif.Spec.PubSubRace
import Verif.Proofs.PubSub
import Verif.Proofs.SdkConnection

/-! # Overlapping publish/subscribe requests -/

namespace Verif.PubSub.Race

theorem run_append (s : State) (a b : List Ev) : run s (a ++ b) = run (run s a) b := by
  induction a generalizing s with
  | nil => rfl
  | cons e a ih => exact ih _

theorem outs_append (s : State) (a b : List Ev) : outs s (a ++ b) = outs s a ++ outs (run s a) b := by
  induction a generalizing s with
  | nil => rfl
  | cons e a ih => show _ ++ outs _ (a ++ b) = (_ ++ _) ++ _; rw [ih, List.append_assoc]; rfl

theorem run_snoc (s : State) (a : List Ev) (e : Ev) : run s (a ++ [e]) = (step (run s a) e).1 := run_append s a [e]

theorem outs_snoc (s : State) (a : List Ev) (e : Ev) : outs s (a ++ [e]) = outs s a ++ (step (run s a) e).2 := by
  rw [outs_append]; simp [outs]

theorem starts_append (a b : List Ev) : starts (a ++ b) = starts a ++ starts b := by
  induction a with
  | nil => rfl
  | cons e a ih => cases e <;> simp [starts, ih]

theorem mem_starts {es : List Ev} {id : Nat} {r : Req} (h : Ev.start id r ∈ es) : id ∈ starts es := by
  induction es with
  | nil => cases h
  | cons e es ih =>
    rcases List.mem_cons.mp h with rfl | h'
    · simp [starts]
    · cases e <;> simp [starts, ih h']

/-- How the tasks change: a request that takes a section becomes this, or is done. -/
theorem beginDrop_tasks (s : State) (id : Nat) (cs : List Cid) (i : Nat) (h : i ≠ id) :
    mget (beginDrop s id cs).tasks i = mget s.tasks i := by
  unfold beginDrop
  split
  · exact mget_mdel_ne _ h
  · split
    · exact mget_mset_ne _ _ h
    · simp only
      split
      · exact mget_mdel_ne _ h
      · exact mget_mset_ne _ _ h

theorem advance_tasks (s : State) (id now : Nat) (t : Task) (i : Nat) (h : i ≠ id) :
    mget (advance s id now t).1.tasks i = mget s.tasks i := by
  unfold advance
  split
  · exact mget_mdel_ne _ h
  · exact mget_mdel_ne _ h
  · exact mget_mset_ne _ _ h
  · exact beginDrop_tasks s id _ i h
  · split
    · exact mget_mset_ne _ _ h
    · exact mget_mset_ne _ _ h
  · simp only
    split
    · exact mget_mdel_ne _ h
    · exact mget_mset_ne _ _ h
  · exact beginDrop_tasks s id _ i h

theorem begin_tasks (s : State) (id : Nat) (r : Req) (i : Nat) (h : i ≠ id) : mget (begin_ s id r).tasks i = mget s.tasks i := by
  unfold begin_
  split
  · split
    · exact mget_mset_ne _ _ h
    · rfl
  · exact mget_mset_ne _ _ h
  · exact mget_mset_ne _ _ h
  · exact beginDrop_tasks s id _ i h

/-- A request that is in progress was begun. -/
theorem task_started (es : List Ev) (id : Nat) (h : mget (run {} es).tasks id ≠ none) : id ∈ starts es := by
  induction es using Verif.Sdk.snoc_ind with
  | h0 => exact absurd rfl h
  | h1 es e ih =>
    rw [run_snoc] at h
    rw [starts_append]
    refine List.mem_append.mpr ?_
    cases e with
    | connect c => exact .inl (ih h)
    | gone c => exact .inl (ih h)
    | start i r =>
      by_cases hi : id = i
      · exact .inr (by simp [starts, hi])
      · refine .inl (ih ?_)
        rwa [show (step (run {} es) (.start i r)).1 = begin_ (run {} es) i r from rfl, begin_tasks _ _ _ _ hi] at h
    | next i now =>
      refine .inl (ih ?_)
      by_cases hi : id = i
      · subst hi
        intro hn
        simp only [step, hn] at h
        exact h rfl
      · unfold step at h
        simp only at h
        split at h
        · rwa [advance_tasks _ _ _ _ _ hi] at h
        · exact h

/-- What a task becomes. -/
theorem advance_own (s : State) (id now : Nat) (t : Task) :
    mget (advance s id now t).1.tasks id =
      match t with
      | .subscribe _ _ => none
      | .unsubscribe _ _ => none
      | .route topic data => some (.send ⟨topic, data⟩ (dedup [] (matchSubs (split topic) s.tree)) [])
      | .send _ [] zs => mget (beginDrop s id zs).tasks id
      | .send msg (c :: todo) zs => some (if (mget s.clients c).isSome ∧ c ∉ s.gone then .send msg todo zs else .send msg todo (zs ++ [c]))
      | .forget _ _ rest => if rest = [] then none else some (.disconnect rest)
      | .disconnect cs => mget (beginDrop s id cs).tasks id := by
  unfold advance
  split
  · exact mget_mdel_same _ _
  · exact mget_mdel_same _ _
  · exact mget_mset_same _ _ _
  · rfl
  · simp only
    split <;> exact mget_mset_same _ _ _
  · simp only
    split
    · exact mget_mdel_same _ _
    · exact mget_mset_same _ _ _
  · rfl

theorem beginDrop_own (s : State) (id : Nat) (cs : List Cid) (t : Task) (h : mget (beginDrop s id cs).tasks id = some t) :
    (∃ c ps rest, cs = c :: rest ∧ t = .forget c ps rest ∧ mget s.clients c = some ps) ∨
    ∃ c rest, cs = c :: rest ∧ t = .disconnect rest ∧ mget s.clients c = none := by
  cases cs with
  | nil => rw [show (beginDrop s id []).tasks = mdel s.tasks id from rfl, mget_mdel_same] at h; cases h
  | cons c rest =>
    unfold beginDrop at h
    simp only at h
    cases hc : mget s.clients c with
    | some ps => simp only [hc] at h; rw [mget_mset_same] at h; cases h; exact .inl ⟨c, ps, rest, rfl, rfl, hc⟩
    | none =>
      simp only [hc] at h
      split at h
      · rw [mget_mdel_same] at h; cases h
      · rw [mget_mset_same] at h; cases h; exact .inr ⟨c, rest, rfl, rfl, hc⟩

theorem beginDrop_tree (s : State) (id : Nat) (cs : List Cid) : (beginDrop s id cs).tree = s.tree := by
  unfold beginDrop; split
  · rfl
  · split <;> rfl

theorem beginDrop_gone (s : State) (id : Nat) (cs : List Cid) : (beginDrop s id cs).gone = s.gone := by
  unfold beginDrop; split
  · rfl
  · split <;> rfl

theorem beginDrop_clients (s : State) (id : Nat) (cs : List Cid) (c : Cid) (h : cs.head? ≠ some c) :
    mget (beginDrop s id cs).clients c = mget s.clients c := by
  unfold beginDrop
  split
  · rfl
  · next d rest =>
    have hd : c ≠ d := by rintro rfl; exact h rfl
    split
    · exact mget_mdel_ne _ hd
    · rfl

/-! ## The tree -/

/-- Only the tree section of a `subscribe` adds to the tree. -/
theorem tree_add {s : State} {e : Ev} {c : Cid} {es : List Edge} (h : c ∈ subsAt es (step s e).1.tree) :
    c ∈ subsAt es s.tree ∨ ∃ id now p, e = .next id now ∧ mget s.tasks id = some (.subscribe c p) ∧ edges (split p) = es := by
  cases e with
  | connect d => exact .inl h
  | gone d => exact .inl h
  | start id r =>
    refine .inl ?_
    cases r with
    | subscribe d p => simp only [step, begin_] at h; split at h <;> exact h
    | unsubscribe d p => exact h
    | publish t d keep =>
      simp only [step, begin_] at h
      split at h
      · rwa [subsAt_setRetained] at h
      · exact h
    | disconnect d => simpa only [step, begin_, beginDrop_tree] using h
  | next id now =>
    simp only [step] at h
    split at h
    · next t ht =>
      unfold advance at h
      split at h
      · next d p =>
        rcases subsAt_insert.mp h with h | ⟨rfl, rfl⟩
        · exact .inl h
        · exact .inr ⟨id, now, p, rfl, ht, rfl⟩
      · exact .inl (subsAt_remove.mp h).1
      · exact .inl h
      · exact .inl (by simpa only [beginDrop_tree] using h)
      · split at h <;> exact .inl h
      · exact .inl ((subsAt_foldl_remove _ _).mp h).1
      · exact .inl (by simpa only [beginDrop_tree] using h)
    · exact .inl h

/-- Only the tree sections of `unsubscribe` and of a disconnection take something out of the tree. -/
theorem tree_del {s : State} {e : Ev} {c : Cid} {es : List Edge} (h : c ∈ subsAt es s.tree) :
    c ∈ subsAt es (step s e).1.tree ∨ ∃ id now, e = .next id now ∧
      ((∃ p, mget s.tasks id = some (.unsubscribe c p) ∧ edges (split p) = es) ∨ ∃ ps rest, mget s.tasks id = some (.forget c ps rest)) := by
  cases e with
  | connect d => exact .inl h
  | gone d => exact .inl h
  | start id r =>
    refine .inl ?_
    cases r with
    | subscribe d p => simp only [step, begin_]; split <;> exact h
    | unsubscribe d p => exact h
    | publish t d keep =>
      simp only [step, begin_]
      split
      · rwa [subsAt_setRetained]
      · exact h
    | disconnect d => simpa only [step, begin_, beginDrop_tree] using h
  | next id now =>
    simp only [step]
    split
    · next t ht =>
      unfold advance
      split
      · exact .inl (subsAt_insert.mpr (.inl h))
      · next d p =>
        by_cases hc : c = d ∧ es = edges (split p)
        · obtain ⟨rfl, rfl⟩ := hc
          exact .inr ⟨id, now, rfl, .inl ⟨p, ht, rfl⟩⟩
        · exact .inl (subsAt_remove.mpr ⟨h, hc⟩)
      · exact .inl h
      · exact .inl (by simpa only [beginDrop_tree] using h)
      · split <;> exact .inl h
      · next d ps rest =>
        by_cases hc : c = d
        · subst hc
          exact .inr ⟨id, now, rfl, .inr ⟨ps, rest, ht⟩⟩
        · exact .inl ((subsAt_foldl_remove _ _).mpr ⟨h, fun hh => hc hh.1⟩)
      · exact .inl (by simpa only [beginDrop_tree] using h)
    · exact .inl h

theorem tree_sub {s : State} {id now : Nat} {c : Cid} {p : Str} (h : mget s.tasks id = some (.subscribe c p)) :
    c ∈ subsAt (edges (split p)) (step s (.next id now)).1.tree := by
  simp only [step, h, advance]
  exact subsAt_insert.mpr (.inr ⟨rfl, rfl⟩)

theorem tree_unsub {s : State} {id now : Nat} {c : Cid} {p : Str} (h : mget s.tasks id = some (.unsubscribe c p)) :
    c ∉ subsAt (edges (split p)) (step s (.next id now)).1.tree := by
  simp only [step, h, advance]
  exact fun hc => (subsAt_remove.mp hc).2 ⟨rfl, rfl⟩

/-! ## The tasks -/

/-- A task stays until it is its turn. -/
theorem task_stays {s : State} {e : Ev} {i : Nat} (h1 : ∀ now, e ≠ .next i now) (h2 : ∀ r, e ≠ .start i r) :
    mget (step s e).1.tasks i = mget s.tasks i := by
  cases e with
  | connect d => rfl
  | gone d => rfl
  | start id r => exact begin_tasks _ _ _ _ (fun h => h2 r (by rw [h]))
  | next id now =>
    simp only [step]
    split
    · exact advance_tasks _ _ _ _ _ (fun h => h1 now (by rw [h]))
    · rfl

/-- Where a task comes from. -/
theorem task_from {s : State} {e : Ev} {i : Nat} {t : Task} (h : mget (step s e).1.tasks i = some t) :
    mget s.tasks i = some t ∨
    (∃ r, e = .start i r ∧ (match t with
      | .subscribe c p => r = .subscribe c p
      | .unsubscribe c p => r = .unsubscribe c p
      | .route topic data => ∃ keep, r = .publish topic data keep
      | .forget c ps rest => r = .disconnect c ∧ rest = [] ∧ mget s.clients c = some ps
      | _ => False)) ∨
    (∃ now t0, e = .next i now ∧ mget s.tasks i = some t0 ∧ (match t0, t with
      | .route topic data, .send msg todo zs => msg = ⟨topic, data⟩ ∧ todo = dedup [] (matchSubs (split topic) s.tree) ∧ zs = []
      | .send msg0 (c :: todo0) zs0, .send msg todo zs => msg = msg0 ∧ todo = todo0 ∧
          zs = if (mget s.clients c).isSome ∧ c ∉ s.gone then zs0 else zs0 ++ [c]
      | .send _ [] zs, .forget c ps rest => zs = c :: rest ∧ mget s.clients c = some ps
      | .send _ [] zs, .disconnect rest => ∃ c, zs = c :: rest ∧ mget s.clients c = none
      | .forget _ _ rest0, .disconnect rest => rest = rest0
      | .disconnect cs, .forget c ps rest => cs = c :: rest ∧ mget s.clients c = some ps
      | .disconnect cs, .disconnect rest => ∃ c, cs = c :: rest ∧ mget s.clients c = none
      | _, _ => False)) := by
  by_cases h1 : ∃ now, e = .next i now
  · obtain ⟨now, rfl⟩ := h1
    cases ht : mget s.tasks i with
    | none =>
      simp only [step, ht] at h
      exact .inl (ht ▸ h)
    | some t0 =>
      refine .inr (.inr ⟨now, t0, rfl, rfl, ?_⟩)
      simp only [step, ht] at h
      rw [advance_own] at h
      cases t0 with
      | subscribe c p => cases h
      | unsubscribe c p => cases h
      | route topic data => simp only [Option.some.injEq] at h; subst h; exact ⟨rfl, rfl, rfl⟩
      | send msg todo zs =>
        cases todo with
        | nil =>
          rcases beginDrop_own s i zs t h with ⟨c, ps, rest, h1, rfl, h2⟩ | ⟨c, rest, h1, rfl, h2⟩
          · exact ⟨h1, h2⟩
          · exact ⟨c, h1, h2⟩
        | cons c todo =>
          simp only [Option.some.injEq] at h
          split at h
          · next hc => subst h; exact ⟨rfl, rfl, by rw [if_pos hc]⟩
          · next hc => subst h; exact ⟨rfl, rfl, by rw [if_neg hc]⟩
      | forget c ps rest =>
        simp only at h
        split at h
        · cases h
        · cases h; rfl
      | disconnect cs =>
        rcases beginDrop_own s i cs t h with ⟨c, ps, rest, h1, rfl, h2⟩ | ⟨c, rest, h1, rfl, h2⟩
        · exact ⟨h1, h2⟩
        · exact ⟨c, h1, h2⟩
  · by_cases h2 : ∃ r, e = .start i r
    · obtain ⟨r, rfl⟩ := h2
      cases r with
      | subscribe c p =>
        simp only [step, begin_] at h
        split at h
        · rw [mget_mset_same] at h; cases h; exact .inr (.inl ⟨_, rfl, rfl⟩)
        · exact .inl h
      | unsubscribe c p =>
        simp only [step, begin_] at h
        rw [mget_mset_same] at h; cases h; exact .inr (.inl ⟨_, rfl, rfl⟩)
      | publish topic data keep =>
        simp only [step, begin_] at h
        rw [mget_mset_same] at h; cases h; exact .inr (.inl ⟨_, rfl, keep, rfl⟩)
      | disconnect c =>
        simp only [step, begin_] at h
        rcases beginDrop_own s i [c] t h with ⟨d, ps, rest, h1, rfl, h2⟩ | ⟨d, rest, h1, rfl, h2⟩
        · cases h1; exact .inr (.inl ⟨_, rfl, rfl, rfl, h2⟩)
        · cases h1
          unfold beginDrop at h
          simp only [h2, if_true] at h
          rw [mget_mdel_same] at h; cases h
    · rw [task_stays (fun now hn => h1 ⟨now, hn⟩) (fun r hr => h2 ⟨r, hr⟩)] at h
      exact .inl h

/-! ## A client that stays -/

/-- The task does not disconnect the client. -/
def Task.spares (c : Cid) : Task → Prop
  | .send _ _ zs => c ∉ zs
  | .forget d _ rest => d ≠ c ∧ c ∉ rest
  | .disconnect cs => c ∉ cs
  | _ => True

/-- The task has nothing to do with the client. -/
def Task.ignores (c : Cid) : Task → Prop
  | .subscribe d _ => d ≠ c
  | .send _ todo zs => c ∉ todo ∧ c ∉ zs
  | .forget d _ rest => d ≠ c ∧ c ∉ rest
  | .disconnect cs => c ∉ cs
  | _ => True

theorem Task.ignores.spares {c : Cid} {t : Task} (h : t.ignores c) : t.spares c := by
  cases t <;> first | trivial | exact h | exact h.2

/-- The client is connected and nothing is about to disconnect it. -/
structure Live (c : Cid) (s : State) : Prop where
  here : (mget s.clients c).isSome
  there : c ∉ s.gone
  spared : ∀ i t, mget s.tasks i = some t → t.spares c

/-- The client has not connected yet. -/
structure Unborn (c : Cid) (s : State) : Prop where
  here : mget s.clients c = none
  there : c ∉ s.gone
  tree : ∀ es, c ∉ subsAt es s.tree
  ignored : ∀ i t, mget s.tasks i = some t → t.ignores c

theorem advance_gone (s : State) (id now : Nat) (t : Task) : (advance s id now t).1.gone = s.gone := by
  unfold advance
  split <;> first | rfl | exact beginDrop_gone _ _ _ | skip
  split <;> rfl

theorem step_gone {s : State} {e : Ev} {c : Cid} (h : c ∉ s.gone) (he : e ≠ .gone c) : c ∉ (step s e).1.gone := by
  cases e with
  | connect d => exact h
  | gone d =>
    intro hc
    rcases List.mem_cons.mp hc with rfl | hc
    · exact he rfl
    · exact h hc
  | start id r =>
    cases r with
    | subscribe d p => simp only [step, begin_]; split <;> exact h
    | unsubscribe d p => exact h
    | publish t d keep => exact h
    | disconnect d => simpa only [step, begin_, beginDrop_gone] using h
  | next id now =>
    simp only [step]
    split
    · rwa [advance_gone]
    · exact h

/-- How the entry of a client changes: only a disconnection of that client removes it. -/
theorem step_here {s : State} {e : Ev} {c : Cid} (h : (mget s.clients c).isSome) (he : ∀ id, e ≠ .start id (.disconnect c))
    (ht : ∀ i t, mget s.tasks i = some t → t.spares c) : (mget (step s e).1.clients c).isSome := by
  cases e with
  | connect d =>
    simp only [step]
    rw [mget_mset]
    split
    · rfl
    · exact h
  | gone d => exact h
  | start id r =>
    cases r with
    | subscribe d p =>
      simp only [step, begin_]
      split
      · simp only
        rw [mget_mset]
        split
        · rfl
        · exact h
      · exact h
    | unsubscribe d p =>
      simp only [step, begin_]
      rw [mget_mupd]
      split
      · rw [Option.isSome_map]; exact h
      · exact h
    | publish t d keep => exact h
    | disconnect d =>
      simp only [step, begin_]
      rw [beginDrop_clients]
      · exact h
      · intro hc
        simp at hc
        exact he id (by rw [hc])
  | next id now =>
    simp only [step]
    cases hm : mget s.tasks id with
    | none => exact h
    | some t =>
      have hsp := ht id t hm
      simp only
      cases t with
      | subscribe d p => exact h
      | unsubscribe d p => exact h
      | route topic data => exact h
      | send msg todo zs =>
        cases todo with
        | nil =>
          simp only [advance]
          rw [beginDrop_clients]
          · exact h
          · intro hc
            exact hsp (List.mem_of_mem_head? hc)
        | cons d todo => simp only [advance]; split <;> exact h
      | forget d ps rest => exact h
      | disconnect cs =>
        simp only [advance]
        rw [beginDrop_clients]
        · exact h
        · intro hc
          exact hsp (List.mem_of_mem_head? hc)

theorem Live.step {c : Cid} {s : State} (h : Live c s) {e : Ev} (h1 : e ≠ .gone c) (h2 : ∀ id, e ≠ .start id (.disconnect c)) :
    Live c (step s e).1 := by
  refine ⟨step_here h.here h2 h.spared, step_gone h.there h1, ?_⟩
  intro i t ht
  rcases task_from ht with ht | ⟨r, rfl, hr⟩ | ⟨now, t0, rfl, ht0, hr⟩
  · exact h.spared i t ht
  · cases t with
    | send msg todo zs => exact hr.elim
    | forget d ps rest =>
      obtain ⟨rfl, rfl, _⟩ := hr
      exact ⟨fun hc => h2 i (by rw [hc]), by simp⟩
    | disconnect cs => exact hr.elim
    | _ => trivial
  · have h0 := h.spared i t0 ht0
    cases t0 with
    | subscribe d p => exact hr.elim
    | unsubscribe d p => exact hr.elim
    | route topic data =>
      cases t with
      | send msg todo zs => obtain ⟨_, _, rfl⟩ := hr; show c ∉ []; simp
      | _ => exact hr.elim
    | send msg0 todo0 zs0 =>
      have hz : c ∉ zs0 := h0
      clear h0
      cases todo0 with
      | nil =>
        cases t with
        | forget d ps rest =>
          obtain ⟨rfl, _⟩ := hr
          simp only [List.mem_cons, not_or] at hz
          exact ⟨fun hc => hz.1 hc.symm, hz.2⟩
        | disconnect rest =>
          obtain ⟨d, rfl, _⟩ := hr
          simp only [List.mem_cons, not_or] at hz
          exact hz.2
        | _ => exact hr.elim
      | cons d todo0 =>
        cases t with
        | send msg todo zs =>
          obtain ⟨_, _, rfl⟩ := hr
          show c ∉ _
          split
          · exact hz
          · next hn =>
            simp only [List.mem_append, List.mem_singleton, not_or]
            refine ⟨hz, ?_⟩
            rintro rfl
            exact hn ⟨h.here, h.there⟩
        | _ => exact hr.elim
    | forget d ps rest =>
      cases t with
      | disconnect cs => have hr : cs = rest := hr; subst hr; exact h0.2
      | _ => exact hr.elim
    | disconnect cs =>
      have h0 : c ∉ cs := h0
      cases t with
      | forget d ps rest =>
        obtain ⟨rfl, _⟩ := hr
        simp only [List.mem_cons, not_or] at h0
        exact ⟨fun hc => h0.1 hc.symm, h0.2⟩
      | disconnect rest =>
        obtain ⟨d, rfl, _⟩ := hr
        simp only [List.mem_cons, not_or] at h0
        exact h0.2
      | _ => exact hr.elim

theorem not_mem_matched {c : Cid} {s : State} (h : ∀ es, c ∉ subsAt es s.tree) (t : List Str) : c ∉ dedup [] (matchSubs t s.tree) := by
  intro hc
  obtain ⟨es, he, _⟩ := mem_matchSubs.mp (mem_dedup.mp hc).1
  exact h es he

theorem beginDrop_none {c : Cid} {s : State} (h : mget s.clients c = none) (id : Nat) (cs : List Cid) :
    mget (beginDrop s id cs).clients c = none := by
  unfold beginDrop
  split
  · exact h
  · split
    · simp only; rw [mget_mdel]; split
      · rfl
      · exact h
    · exact h

/-- Nobody but `connect` enters a client. -/
theorem step_none {c : Cid} {s : State} (h : mget s.clients c = none) {e : Ev} (he : e ≠ .connect c) : mget (step s e).1.clients c = none := by
  cases e with
  | connect d =>
    simp only [step]
    rw [mget_mset_ne _ _ (fun hc => he (by rw [hc]))]
    exact h
  | gone d => exact h
  | start id r =>
    cases r with
    | subscribe d p =>
      simp only [step, begin_]
      split
      · next subs hs =>
        simp only
        rw [mget_mset_ne]
        · exact h
        · rintro rfl; rw [h] at hs; cases hs
      · exact h
    | unsubscribe d p =>
      simp only [step, begin_]
      rw [mget_mupd]
      split
      · rw [h]; rfl
      · exact h
    | publish t d keep => exact h
    | disconnect d => exact beginDrop_none h _ _
  | next id now =>
    simp only [step]
    split
    · unfold advance
      split <;> first | exact h | exact beginDrop_none h _ _ | skip
      split <;> exact h
    · exact h

theorem Unborn.step {c : Cid} {s : State} (h : Unborn c s) {e : Ev} (h0 : e ≠ .connect c) (h1 : e ≠ .gone c) : Unborn c (step s e).1 := by
  refine ⟨step_none h.here h0, step_gone h.there h1, ?_, ?_⟩
  · intro es hc
    rcases tree_add hc with hc | ⟨id, now, p, _, ht, _⟩
    · exact h.tree es hc
    · exact h.ignored _ _ ht rfl
  · intro i t ht
    rcases task_from ht with ht | ⟨r, rfl, hr⟩ | ⟨now, t0, rfl, ht0, hr⟩
    · exact h.ignored i t ht
    · cases t with
      | subscribe d p =>
        have hr : r = .subscribe d p := hr
        subst hr
        show d ≠ c
        rintro rfl
        simp only [Race.step, begin_, h.here] at ht
        exact h.ignored _ _ ht rfl
      | send msg todo zs => exact hr.elim
      | forget d ps rest =>
        obtain ⟨rfl, rfl, hd⟩ := hr
        refine ⟨?_, by simp⟩
        rintro rfl
        rw [h.here] at hd; cases hd
      | disconnect cs => exact hr.elim
      | _ => trivial
    · have hi := h.ignored i t0 ht0
      cases t0 with
      | subscribe d p => exact hr.elim
      | unsubscribe d p => exact hr.elim
      | route topic data =>
        cases t with
        | send msg todo zs => obtain ⟨_, rfl, rfl⟩ := hr; exact ⟨not_mem_matched h.tree _, by simp⟩
        | _ => exact hr.elim
      | send msg0 todo0 zs0 =>
        have hi : c ∉ todo0 ∧ c ∉ zs0 := hi
        cases todo0 with
        | nil =>
          cases t with
          | forget d ps rest =>
            obtain ⟨rfl, _⟩ := hr
            simp only [List.mem_cons, not_or] at hi
            exact ⟨fun hc => hi.2.1 hc.symm, hi.2.2⟩
          | disconnect rest =>
            obtain ⟨d, rfl, _⟩ := hr
            simp only [List.mem_cons, not_or] at hi
            exact hi.2.2
          | _ => exact hr.elim
        | cons d todo0 =>
          simp only [List.mem_cons, not_or] at hi
          cases t with
          | send msg todo zs =>
            obtain ⟨_, rfl, rfl⟩ := hr
            refine ⟨hi.1.2, ?_⟩
            split
            · exact hi.2
            · simp only [List.mem_append, List.mem_singleton, not_or]
              exact ⟨hi.2, hi.1.1⟩
          | _ => exact hr.elim
      | forget d ps rest =>
        cases t with
        | disconnect cs => have hr : cs = rest := hr; subst hr; exact hi.2
        | _ => exact hr.elim
      | disconnect cs =>
        have hi : c ∉ cs := hi
        cases t with
        | forget d ps rest =>
          obtain ⟨rfl, _⟩ := hr
          simp only [List.mem_cons, not_or] at hi
          exact ⟨fun hc => hi.1 hc.symm, hi.2⟩
        | disconnect rest =>
          obtain ⟨d, rfl, _⟩ := hr
          simp only [List.mem_cons, not_or] at hi
          exact hi.2
        | _ => exact hr.elim

theorem unborn_init (c : Cid) : Unborn c {} :=
  ⟨rfl, by simp, fun es => by rw [subsAt_empty]; simp, fun i t h => by cases h⟩

theorem live_or {c : Cid} {es : List Ev} (h1 : Ev.gone c ∉ es) (h2 : ∀ id, Ev.start id (.disconnect c) ∉ es) :
    if Ev.connect c ∈ es then Live c (run {} es) else Unborn c (run {} es) := by
  induction es using Verif.Sdk.snoc_ind with
  | h0 => rw [if_neg (by simp)]; exact unborn_init c
  | h1 es e ih =>
    have ih := ih (fun h => h1 (by simp [h])) (fun id h => h2 id (by simp [h]))
    have he1 : e ≠ .gone c := fun h => h1 (by simp [h])
    have he2 : ∀ id, e ≠ .start id (.disconnect c) := fun id h => h2 id (by simp [h])
    rw [run_snoc]
    by_cases hc : Ev.connect c ∈ es
    · rw [if_pos hc] at ih
      rw [if_pos (by simp [hc])]
      exact ih.step he1 he2
    · rw [if_neg hc] at ih
      by_cases hn : e = .connect c
      · subst hn
        rw [if_pos (by simp)]
        exact ⟨by simp only [step]; rw [mget_mset_same]; rfl, ih.there, fun i t ht => (ih.ignored i t ht).spares⟩
      · rw [if_neg (by simp only [List.mem_append, List.mem_singleton, hc, false_or]; exact fun h => hn h.symm)]
        exact ih.step hn he1

/-- A client that has connected, whose receiver has not ended and that has not been disconnected, is connected. -/
theorem live {c : Cid} {es : List Ev} (h0 : Ev.connect c ∈ es) (h1 : Ev.gone c ∉ es) (h2 : ∀ id, Ev.start id (.disconnect c) ∉ es) :
    Live c (run {} es) := by
  have := live_or h1 h2
  rwa [if_pos h0] at this

/-! ## Where tasks and entries come from -/

theorem sub_task {es : List Ev} {i : Nat} {c : Cid} {p : Str} (h : mget (run {} es).tasks i = some (.subscribe c p)) :
    Ev.start i (.subscribe c p) ∈ es := by
  induction es using Verif.Sdk.snoc_ind with
  | h0 => cases h
  | h1 es e ih =>
    rw [run_snoc] at h
    rcases task_from h with h | ⟨r, rfl, hr⟩ | ⟨now, t0, rfl, _, hr⟩
    · exact List.mem_append_left _ (ih h)
    · have hr : r = .subscribe c p := hr
      subst hr; simp
    · rcases t0 with _ | _ | _ | ⟨_, _ | _, _⟩ | _ | _ <;> exact hr.elim

theorem unsub_task {es : List Ev} {i : Nat} {c : Cid} {p : Str} (h : mget (run {} es).tasks i = some (.unsubscribe c p)) :
    Ev.start i (.unsubscribe c p) ∈ es := by
  induction es using Verif.Sdk.snoc_ind with
  | h0 => cases h
  | h1 es e ih =>
    rw [run_snoc] at h
    rcases task_from h with h | ⟨r, rfl, hr⟩ | ⟨now, t0, rfl, _, hr⟩
    · exact List.mem_append_left _ (ih h)
    · have hr : r = .unsubscribe c p := hr
      subst hr; simp
    · rcases t0 with _ | _ | _ | ⟨_, _ | _, _⟩ | _ | _ <;> exact hr.elim

/-- Who is in the tree has subscribed. -/
theorem tree_origin {es : List Ev} {c : Cid} {ed : List Edge} (h : c ∈ subsAt ed (run {} es).tree) :
    ∃ i p, Ev.start i (.subscribe c p) ∈ es ∧ edges (split p) = ed := by
  induction es using Verif.Sdk.snoc_ind with
  | h0 => rw [show (run {} []).tree = .empty from rfl, subsAt_empty] at h; cases h
  | h1 es e ih =>
    rw [run_snoc] at h
    rcases tree_add h with h | ⟨id, now, p, rfl, ht, h2⟩
    · obtain ⟨i, p, h1, h2⟩ := ih h
      exact ⟨i, p, List.mem_append_left _ h1, h2⟩
    · exact ⟨id, p, List.mem_append_left _ (sub_task ht), h2⟩

theorem pattern_inj {p q : Str} (hp : hashLast (split p) = true) (hq : hashLast (split q) = true) (h : edges (split p) = edges (split q)) : p = q :=
  split_inj (edges_inj hp hq h)

/-! ## A subscription that stays -/

/-- The client is in the tree, or its subscription is about to enter it; nothing is about to take it out. -/
structure Held (c : Cid) (p : Str) (sid : Nat) (s : State) : Prop where
  live : Live c s
  free : s.free (.unsubscribe c p)
  held : mget s.tasks sid = some (.subscribe c p) ∨ c ∈ subsAt (edges (split p)) s.tree

theorem held {a b : List Ev} {sid : Nat} {c : Cid} {p : Str} (hn : (starts (a ++ Ev.start sid (.subscribe c p) :: b)).Nodup)
    (hp : Proper (a ++ Ev.start sid (.subscribe c p) :: b))
    (h0 : Ev.connect c ∈ a) (h1 : Ev.gone c ∉ a ++ Ev.start sid (.subscribe c p) :: b)
    (h2 : ∀ id, Ev.start id (.disconnect c) ∉ a ++ Ev.start sid (.subscribe c p) :: b)
    (h3 : (run {} a).free (.unsubscribe c p)) (h4 : ∀ id, Ev.start id (.unsubscribe c p) ∉ b) :
    Held c p sid (run {} (a ++ Ev.start sid (.subscribe c p) :: b)) := by
  induction b using Verif.Sdk.snoc_ind with
  | h0 =>
    have hl := live (List.mem_append_left _ h0) h1 h2
    have hl0 := live h0 (fun h => h1 (by simp [h])) (fun id h => h2 id (by simp [h]))
    rw [run_snoc] at hl ⊢
    refine ⟨hl, ?_, .inl ?_⟩
    · intro i hi
      rcases task_from hi with hi | ⟨r, hr, hr'⟩ | ⟨_, _, hr, _⟩
      · exact h3 i hi
      · have hr' : r = .unsubscribe c p := hr'
        subst hr'; cases hr
      · cases hr
    · simp only [step, begin_]
      have := hl0.here
      cases hc : mget (run {} a).clients c with
      | none => rw [hc] at this; cases this
      | some subs => simp only; rw [mget_mset_same]
  | h1 b e ih =>
    have hsplit : a ++ Ev.start sid (.subscribe c p) :: (b ++ [e]) = (a ++ Ev.start sid (.subscribe c p) :: b) ++ [e] := by simp
    have hl := live (List.mem_append_left _ h0) h1 h2
    rw [hsplit] at hn hp h1 h2 hl ⊢
    have ih := ih (by rw [starts_append] at hn; exact (List.nodup_append.mp hn).1)
      ⟨fun i d q h => hp.1 i d q (List.mem_append_left _ h), fun i d q h => hp.2 i d q (List.mem_append_left _ h)⟩
      (fun h => h1 (List.mem_append_left _ h)) (fun id h => h2 id (List.mem_append_left _ h))
      (fun id h => h4 id (List.mem_append_left _ h))
    have hpp : hashLast (split p) = true := hp.1 sid c p (by simp)
    rw [run_snoc] at hl ⊢
    refine ⟨hl, ?_, ?_⟩
    · intro i hi
      rcases task_from hi with hi | ⟨r, rfl, hr'⟩ | ⟨_, t0, _, _, hr⟩
      · exact ih.free i hi
      · have hr' : r = .unsubscribe c p := hr'
        subst hr'
        exact h4 i (by simp)
      · rcases t0 with _ | _ | _ | ⟨_, _ | _, _⟩ | _ | _ <;> exact hr.elim
    · rcases ih.held with ht | ht
      · by_cases he : ∃ now, e = .next sid now
        · obtain ⟨now, rfl⟩ := he
          exact .inr (tree_sub ht)
        · refine .inl ?_
          rw [task_stays (fun now h => he ⟨now, h⟩)]
          · exact ht
          · rintro r rfl
            have hd : (starts (a ++ Ev.start sid (.subscribe c p) :: b) ++ [sid]).Nodup := by
              rw [starts_append] at hn; exact hn
            rw [List.nodup_append] at hd
            exact hd.2.2 sid (mem_starts (r := .subscribe c p) (by simp)) sid (by simp) rfl
      · rcases tree_del (e := e) ht with ht | ⟨id, now, rfl, ⟨q, hq, he⟩ | ⟨ps, rest, hq⟩⟩
        · exact .inr ht
        · have hqp : hashLast (split q) = true := hp.2 id c q (List.mem_append_left _ (unsub_task hq))
          have := pattern_inj hqp hpp he
          subst this
          exact absurd hq (ih.free id)
        · exact absurd rfl (ih.live.spared id _ hq).1

/-! ## A publish -/

/-- Only a section of a request sends anything: the retained values to a new subscriber, or a message to one of the clients. -/
theorem sent_from {s : State} {e : Ev} {x : Sent} (h : x ∈ (step s e).2) :
    ∃ now, e = .next x.by_ now ∧ ((∃ p, mget s.tasks x.by_ = some (.subscribe x.to p)) ∨
      ∃ todo zs, mget s.tasks x.by_ = some (.send x.msg (x.to :: todo) zs) ∧ (mget s.clients x.to).isSome ∧ x.to ∉ s.gone ∧ (step s e).2 = [x]) := by
  cases e with
  | connect d => cases h
  | gone d => cases h
  | start id r => cases h
  | next id now =>
    simp only [step] at h ⊢
    cases ht : mget s.tasks id with
    | none => rw [ht] at h; cases h
    | some t =>
      simp only [ht] at h ⊢
      cases t with
      | subscribe c p =>
        simp only [advance] at h
        split at h
        · cases h
        · obtain ⟨m, _, rfl⟩ := List.mem_map.mp h
          exact ⟨now, rfl, .inl ⟨p, ht⟩⟩
      | unsubscribe c p => cases h
      | route topic data => cases h
      | send msg todo zs =>
        cases todo with
        | nil => cases h
        | cons c todo =>
          simp only [advance] at h ⊢
          split at h
          · next hc =>
            simp only [List.mem_singleton] at h
            subst h
            exact ⟨now, rfl, .inr ⟨todo, zs, ht, hc.1, hc.2, by simp only [hc, and_self, not_false_eq_true, if_true]⟩⟩
          · cases h
      | forget c ps rest => cases h
      | disconnect cs => cases h

theorem sent_started {es : List Ev} {x : Sent} (h : x ∈ outs {} es) : x.by_ ∈ starts es := by
  induction es using Verif.Sdk.snoc_ind with
  | h0 => cases h
  | h1 es e ih =>
    rw [outs_snoc] at h
    rw [starts_append]
    refine List.mem_append_left _ ?_
    rcases List.mem_append.mp h with h | h
    · exact ih h
    · obtain ⟨now, rfl, ⟨p, h⟩ | ⟨todo, zs, h, _⟩⟩ := sent_from h
      · exact task_started _ _ (by rw [h]; simp)
      · exact task_started _ _ (by rw [h]; simp)

theorem byTo_append (id : Nat) (c : Cid) (a b : List Sent) : byTo id c (a ++ b) = byTo id c a ++ byTo id c b := by
  simp [byTo]

theorem byTo_nil {id : Nat} {c : Cid} {l : List Sent} : byTo id c l = [] ↔ ∀ x ∈ l, ¬(x.by_ = id ∧ x.to = c) := by
  simp [byTo, List.filter_eq_nil_iff]

theorem byTo_other {s : State} {e : Ev} {id : Nat} (h : ∀ now, e ≠ .next id now) (c : Cid) : byTo id c (step s e).2 = [] := by
  rw [byTo_nil]
  rintro x hx ⟨rfl, -⟩
  obtain ⟨now, he, _⟩ := sent_from hx
  exact h now he

/-- How far a publish is, and what it has put into the channel of a client. -/
def Phase (pid : Nat) (c : Cid) (msg : Msg) (l : List Sent) : Option Task → Prop
  | some (.route topic data) => (⟨topic, data⟩ : Msg) = msg ∧ byTo pid c l = []
  | some (.send m todo _) => m = msg ∧ todo.Nodup ∧ (byTo pid c l = [] ∨ byTo pid c l = [⟨pid, c, msg⟩] ∧ c ∉ todo)
  | some (.subscribe _ _) => False
  | some (.unsubscribe _ _) => False
  | _ => byTo pid c l = [] ∨ byTo pid c l = [⟨pid, c, msg⟩]

theorem Phase.le {pid : Nat} {c : Cid} {msg : Msg} {l : List Sent} {t : Option Task} (h : Phase pid c msg l t) :
    byTo pid c l = [] ∨ byTo pid c l = [⟨pid, c, msg⟩] := by
  rcases t with _ | (_ | _ | _ | _ | _ | _)
  · exact h
  · exact h.elim
  · exact h.elim
  · exact .inl h.2
  · exact h.2.2.imp id (·.1)
  · exact h
  · exact h

theorem phase {a b : List Ev} {pid : Nat} {t : Str} {d : Bytes} {keep : Option (Option Retained)}
    (hn : (starts (a ++ Ev.start pid (.publish t d keep) :: b)).Nodup) (c : Cid) :
    Phase pid c ⟨t, d⟩ (outs {} (a ++ Ev.start pid (.publish t d keep) :: b))
      (mget (run {} (a ++ Ev.start pid (.publish t d keep) :: b)).tasks pid) := by
  induction b using Verif.Sdk.snoc_ind with
  | h0 =>
    rw [run_snoc, outs_snoc]
    simp only [step, begin_, List.append_nil]
    rw [mget_mset_same]
    refine ⟨rfl, byTo_nil.mpr ?_⟩
    rintro x hx ⟨rfl, -⟩
    rw [starts_append, List.nodup_append] at hn
    exact hn.2.2 x.by_ (sent_started hx) x.by_ (by simp [starts]) rfl
  | h1 b e ih =>
    have hsplit : a ++ Ev.start pid (.publish t d keep) :: (b ++ [e]) = (a ++ Ev.start pid (.publish t d keep) :: b) ++ [e] := by simp
    rw [hsplit] at hn ⊢
    rw [starts_append, List.nodup_append] at hn
    have ih := ih hn.1
    have hin : pid ∈ starts (a ++ Ev.start pid (.publish t d keep) :: b) := mem_starts (r := .publish t d keep) (by simp)
    generalize hs : run {} (a ++ Ev.start pid (.publish t d keep) :: b) = s at ih
    generalize hl : outs {} (a ++ Ev.start pid (.publish t d keep) :: b) = l at ih
    rw [run_snoc, outs_snoc, hs, hl]
    by_cases he : ∃ now, e = .next pid now
    · obtain ⟨now, rfl⟩ := he
      cases ht : mget s.tasks pid with
      | none => simp only [step, ht, List.append_nil]; rw [ht] at ih; exact ih
      | some tk =>
        rw [ht] at ih
        simp only [step, ht]
        rw [advance_own]
        have drop : ∀ cs, (byTo pid c l = [] ∨ byTo pid c l = [⟨pid, c, ⟨t, d⟩⟩]) → Phase pid c ⟨t, d⟩ (l ++ []) (mget (beginDrop s pid cs).tasks pid) := by
          intro cs h
          rw [List.append_nil]
          cases hb : mget (beginDrop s pid cs).tasks pid with
          | none => exact h
          | some tk' =>
            rcases beginDrop_own s pid cs tk' hb with ⟨_, _, _, _, rfl, _⟩ | ⟨_, _, _, rfl, _⟩ <;> exact h
        cases tk with
        | subscribe c' p => exact ih.elim
        | unsubscribe c' p => exact ih.elim
        | route topic data =>
          simp only [advance, List.append_nil]
          exact ⟨ih.1, dedup_nodup _ _, .inl ih.2⟩
        | send msg todo zs =>
          obtain ⟨rfl, h2, h3⟩ := ih
          cases todo with
          | nil => exact drop zs (h3.imp id (·.1))
          | cons c' todo =>
            simp only [advance]
            rw [List.nodup_cons] at h2
            split
            · refine ⟨rfl, h2.2, ?_⟩
              rw [byTo_append]
              by_cases hc : c' = c
              · subst hc
                rcases h3 with h3 | ⟨_, h3⟩
                · exact .inr ⟨by rw [h3]; simp [byTo], h2.1⟩
                · exact absurd (List.mem_cons_self ..) h3
              · have hx : byTo pid c [(⟨pid, c', ⟨t, d⟩⟩ : Sent)] = [] := by simp [byTo, hc]
                rw [hx, List.append_nil]
                exact h3.imp id (fun h => ⟨h.1, fun h' => h.2 (List.mem_cons_of_mem _ h')⟩)
            · rw [List.append_nil]
              exact ⟨rfl, h2.2, h3.imp id (fun h => ⟨h.1, fun h' => h.2 (List.mem_cons_of_mem _ h')⟩)⟩
        | forget c' ps rest =>
          simp only [advance, List.append_nil]
          split <;> exact ih
        | disconnect cs => exact drop cs ih
    · have h1 : byTo pid c (step s e).2 = [] := byTo_other (fun now h => he ⟨now, h⟩) c
      have h2 : byTo pid c (l ++ (step s e).2) = byTo pid c l := by rw [byTo_append, h1, List.append_nil]
      rw [task_stays (fun now h => he ⟨now, h⟩)]
      · revert ih
        rcases mget s.tasks pid with _ | (_ | _ | _ | _ | _ | _) <;> simp only [Phase, h2, imp_self]
      · rintro r rfl
        exact hn.2.2 pid hin pid (by simp [starts]) rfl

/-- A publish, as seen by a client that holds a matching subscription. -/
def Due (pid : Nat) (c : Cid) (msg : Msg) (l : List Sent) : Option Task → Prop
  | some (.route topic data) => (⟨topic, data⟩ : Msg) = msg
  | some (.send m todo _) => m = msg ∧ (c ∈ todo ∨ ⟨pid, c, msg⟩ ∈ l)
  | some (.subscribe _ _) => False
  | some (.unsubscribe _ _) => False
  | _ => ⟨pid, c, msg⟩ ∈ l

theorem Due.mono {pid : Nat} {c : Cid} {msg : Msg} {l l' : List Sent} {t : Option Task} (hl : ∀ x ∈ l, x ∈ l') (h : Due pid c msg l t) :
    Due pid c msg l' t := by
  rcases t with _ | (_ | _ | _ | _ | _ | _)
  · exact hl _ h
  · exact h.elim
  · exact h.elim
  · exact h
  · exact ⟨h.1, h.2.imp id (hl _)⟩
  · exact hl _ h
  · exact hl _ h

/-- One section of a publish to a client that holds a matching subscription. -/
theorem Due.step {pid : Nat} {c : Cid} {topic : Str} {data : Bytes} {l : List Sent} {s : State} {e : Ev} (hlive : Live c s)
    (hm : c ∈ matchSubs (split topic) s.tree) (hs : ∀ r, e ≠ .start pid r) (h : Due pid c ⟨topic, data⟩ l (mget s.tasks pid)) :
    Due pid c ⟨topic, data⟩ (l ++ (Race.step s e).2) (mget (Race.step s e).1.tasks pid) := by
  by_cases he : ∃ now, e = .next pid now
  · obtain ⟨now, rfl⟩ := he
    cases ht : mget s.tasks pid with
    | none => simp only [Race.step, ht, List.append_nil]; rw [ht] at h; exact h
    | some tk =>
      rw [ht] at h
      simp only [Race.step, ht]
      rw [advance_own]
      have drop : ∀ cs, (⟨pid, c, ⟨topic, data⟩⟩ : Sent) ∈ l → Due pid c ⟨topic, data⟩ (l ++ []) (mget (beginDrop s pid cs).tasks pid) := by
        intro cs h
        rw [List.append_nil]
        cases hb : mget (beginDrop s pid cs).tasks pid with
        | none => exact h
        | some tk' =>
          rcases beginDrop_own s pid cs tk' hb with ⟨_, _, _, _, rfl, _⟩ | ⟨_, _, _, rfl, _⟩ <;> exact h
      cases tk with
      | subscribe c' p => exact h.elim
      | unsubscribe c' p => exact h.elim
      | route topic' data' =>
        have h : (⟨topic', data'⟩ : Msg) = ⟨topic, data⟩ := h
        cases h
        exact ⟨rfl, .inl (mem_dedup.mpr ⟨hm, by simp⟩)⟩
      | send msg todo zs =>
        obtain ⟨rfl, h⟩ := h
        cases todo with
        | nil => exact drop zs (h.resolve_left (by simp))
        | cons c' todo =>
          simp only [advance]
          by_cases hc : c' = c
          · subst hc
            rw [if_pos ⟨hlive.here, hlive.there⟩, if_pos ⟨hlive.here, hlive.there⟩]
            exact ⟨rfl, .inr (by simp)⟩
          · have h' : c ∈ todo ∨ (⟨pid, c, ⟨topic, data⟩⟩ : Sent) ∈ l := by
              rcases h with h | h
              · rcases List.mem_cons.mp h with h | h
                · exact absurd h.symm hc
                · exact .inl h
              · exact .inr h
            split
            · exact ⟨rfl, h'.imp id (List.mem_append_left _)⟩
            · exact ⟨rfl, h'.imp id (List.mem_append_left _)⟩
      | forget c' ps rest =>
        simp only [advance, List.append_nil]
        split <;> exact h
      | disconnect cs => exact drop cs h
  · rw [task_stays (fun now h => he ⟨now, h⟩) hs]
    exact h.mono (fun x hx => List.mem_append_left _ hx)

/-! ## A subscription that is not there -/

theorem nobody_step {c : Cid} {p : Str} {s : State} {e : Ev} (hp : ∀ i q, mget s.tasks i = some (.subscribe c q) → hashLast (split q) = true)
    (hpp : hashLast (split p) = true) (he : ∀ id, e ≠ .start id (.subscribe c p)) (hf : s.free (.subscribe c p)) :
    (step s e).1.free (.subscribe c p) ∧ (c ∉ subsAt (edges (split p)) s.tree → c ∉ subsAt (edges (split p)) (step s e).1.tree) := by
  refine ⟨?_, ?_⟩
  · intro i hi
    rcases task_from hi with hi | ⟨r, rfl, hr⟩ | ⟨_, t0, _, _, hr⟩
    · exact hf i hi
    · have hr : r = .subscribe c p := hr
      subst hr
      exact he i rfl
    · rcases t0 with _ | _ | _ | ⟨_, _ | _, _⟩ | _ | _ <;> exact hr.elim
  · intro hc h
    rcases tree_add h with h | ⟨id, now, q, rfl, ht, hq⟩
    · exact hc h
    · have := pattern_inj (hp id q ht) hpp hq
      subst this
      exact hf id ht

theorem absent {c : Cid} {p : Str} {es : List Ev} (hn : (starts es).Nodup) (hp : Proper es) (hpp : hashLast (split p) = true) (h : Absent c p es) :
    (run {} es).free (.subscribe c p) ∧ c ∉ subsAt (edges (split p)) (run {} es).tree := by
  rcases h with h | ⟨x, id, y, rfl, h1, h2, h3⟩
  · refine ⟨fun i hi => h i (sub_task hi), fun hc => ?_⟩
    obtain ⟨i, q, h1, h2⟩ := tree_origin hc
    have := pattern_inj (hp.1 i c q h1) hpp h2
    subst this
    exact h i h1
  · suffices hh : (run {} (x ++ Ev.start id (.unsubscribe c p) :: y)).free (.subscribe c p) ∧
        (mget (run {} (x ++ Ev.start id (.unsubscribe c p) :: y)).tasks id = some (.unsubscribe c p) ∨
          c ∉ subsAt (edges (split p)) (run {} (x ++ Ev.start id (.unsubscribe c p) :: y)).tree) by
      refine ⟨hh.1, hh.2.resolve_left ?_⟩
      have h3 : mget _ id = none := h3
      rw [h3]; simp
    clear h3
    induction y using Verif.Sdk.snoc_ind with
    | h0 =>
      rw [run_snoc]
      refine ⟨(nobody_step (fun i q hi => hp.1 i c q (List.mem_append_left _ (sub_task hi))) hpp (by simp) h1).1, .inl ?_⟩
      simp only [step, begin_]
      rw [mget_mset_same]
    | h1 y e ih =>
      have hsplit : x ++ Ev.start id (.unsubscribe c p) :: (y ++ [e]) = (x ++ Ev.start id (.unsubscribe c p) :: y) ++ [e] := by simp
      rw [hsplit] at hn hp ⊢
      rw [starts_append, List.nodup_append] at hn
      have ih := ih hn.1 ⟨fun i d q h => hp.1 i d q (List.mem_append_left _ h), fun i d q h => hp.2 i d q (List.mem_append_left _ h)⟩
        (fun id h => h2 id (List.mem_append_left _ h))
      rw [run_snoc]
      have hs := nobody_step (e := e) (fun i q hi => hp.1 i c q (List.mem_append_left _ (sub_task hi))) hpp
        (fun i hi => h2 i (by simp [hi])) ih.1
      refine ⟨hs.1, ?_⟩
      rcases ih.2 with ht | ht
      · by_cases he : ∃ now, e = .next id now
        · obtain ⟨now, rfl⟩ := he
          exact .inr (tree_unsub ht)
        · refine .inl ?_
          rw [task_stays (fun now h => he ⟨now, h⟩)]
          · exact ht
          · rintro r rfl
            exact hn.2.2 id (mem_starts (r := .unsubscribe c p) (by simp)) id (by simp [starts]) rfl
      · exact .inr (hs.2 ht)

end Verif.PubSub.Race
