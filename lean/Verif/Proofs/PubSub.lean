import Verif.Proofs.PubSubTree

/-!
# The broker's state against its history
-/

namespace Verif.PubSub

/-- The client holds a subscription whose insertion followed these edges (newest operation first). -/
def holdsRev (c : Cid) (es : List Edge) : List Op → Bool
  | [] => false
  | .subscribe c' p' _ _ :: h =>
    (decide (c' = c) && decide (edges (split p') = es) && connectedRev c h) || holdsRev c es h
  | .unsubscribe c' p' :: h => !(decide (c' = c) && decide (edges (split p') = es)) && holdsRev c es h
  | .drop c' :: h => decide (c' ≠ c) && holdsRev c es h
  | .disconnect c' :: h => decide (c' ≠ c) && holdsRev c es h
  | _ :: h => holdsRev c es h

theorem connected_mem {c : Cid} {h : List Op} (hc : connectedRev c h = true) : c ∈ connects h := by
  induction h with
  | nil => simp [connectedRev] at hc
  | cons o h ih =>
    cases o <;> simp only [connectedRev, connects, Bool.or_eq_true, Bool.and_eq_true, decide_eq_true_eq,
      List.mem_cons] at hc ⊢
    case connect c' => exact hc.elim (fun h => Or.inl h.symm) (fun h => Or.inr (ih h))
    case drop c' => exact ih hc.2
    case disconnect c' => exact ih hc.2
    all_goals exact ih hc

theorem holds_mem {c : Cid} {es : List Edge} {h : List Op} (hc : holdsRev c es h = true) : c ∈ connects h := by
  induction h with
  | nil => simp [holdsRev] at hc
  | cons o h ih =>
    cases o <;> simp only [holdsRev, connects, Bool.or_eq_true, Bool.and_eq_true, decide_eq_true_eq,
      List.mem_cons] at hc ⊢
    case connect c' => exact Or.inr (ih hc)
    case subscribe => exact hc.elim (fun h => connected_mem h.2) ih
    case unsubscribe => exact ih hc.2
    case drop c' => exact ih hc.2
    case disconnect c' => exact ih hc.2
    all_goals exact ih hc

/-- Registry and tree against the history (newest first). -/
structure SubInv (s : State) (h : List Op) : Prop where
  reg : ∀ c info, mget s.clients c = some info → c ∈ connects h ∧ info.alive = connectedRev c h
  conn : ∀ c, connectedRev c h = true → ∃ info, mget s.clients c = some info
  tree1 : ∀ c es, c ∈ subsAt es s.tree →
    ∃ info, mget s.clients c = some info ∧ ∃ p, p ∈ info.subscriptions ∧ edges (split p) = es
  tree2 : ∀ c es, connectedRev c h = true → (c ∈ subsAt es s.tree ↔ holdsRev c es h = true)

theorem subsAt_foldl_remove {c c' : Cid} {es : List Edge} (l : List Str) (t : Node) :
    c' ∈ subsAt es (l.foldl (fun t sub => (removeSub c (split sub) t).1) t)
      ↔ c' ∈ subsAt es t ∧ ¬ (c' = c ∧ ∃ p, p ∈ l ∧ edges (split p) = es) := by
  induction l generalizing t with
  | nil => simp
  | cons p l ih =>
    rw [List.foldl_cons, ih, subsAt_remove]
    constructor
    · rintro ⟨⟨h1, h2⟩, h3⟩
      refine ⟨h1, ?_⟩
      rintro ⟨rfl, q, hq, he⟩
      rcases List.mem_cons.1 hq with rfl | hq
      · exact h2 ⟨rfl, he.symm⟩
      · exact h3 ⟨rfl, q, hq, he⟩
    · rintro ⟨h1, h2⟩
      refine ⟨⟨h1, ?_⟩, ?_⟩
      · rintro ⟨rfl, he⟩; exact h2 ⟨rfl, p, List.mem_cons_self .., he.symm⟩
      · rintro ⟨rfl, q, hq, he⟩; exact h2 ⟨rfl, q, List.mem_cons_of_mem _ hq, he⟩

theorem retAt_foldl_remove {c : Cid} {q : List Str} (l : List Str) (t : Node) :
    retAt q (l.foldl (fun t sub => (removeSub c (split sub) t).1) t) = retAt q t := by
  induction l generalizing t with
  | nil => rfl
  | cons p l ih => rw [List.foldl_cons, ih, retAt_remove]

theorem wf_foldl_remove {c : Cid} (l : List Str) {t : Node} (h : WF t) :
    WF (l.foldl (fun t sub => (removeSub c (split sub) t).1) t) := by
  induction l generalizing t with
  | nil => exact h
  | cons p l ih => rw [List.foldl_cons]; exact ih h.remove

theorem mem_subsAt_disconnect {s : State} {h : List Op} (hi : SubInv s h) {c c' : Cid} {es : List Edge} :
    c' ∈ subsAt es (disconnect s c).tree ↔ c' ∈ subsAt es s.tree ∧ c' ≠ c := by
  unfold disconnect
  cases hc : mget s.clients c with
  | none =>
    simp only
    constructor
    · intro hm
      refine ⟨hm, ?_⟩
      rintro rfl
      obtain ⟨info, h1, _⟩ := hi.tree1 _ _ hm
      rw [hc] at h1; cases h1
    · exact fun h => h.1
  | some info =>
    simp only
    rw [subsAt_foldl_remove]
    constructor
    · rintro ⟨h1, h2⟩
      refine ⟨h1, ?_⟩
      rintro rfl
      obtain ⟨info', h3, p, h4, h5⟩ := hi.tree1 _ _ h1
      rw [hc] at h3; cases h3
      exact h2 ⟨rfl, p, h4, h5⟩
    · rintro ⟨h1, h2⟩
      exact ⟨h1, fun h => h2 h.1⟩

theorem mget_disconnect (s : State) (c c' : Cid) :
    mget (disconnect s c).clients c' = if c' = c then none else mget s.clients c' := by
  unfold disconnect
  cases hc : mget s.clients c with
  | none => simp only; split
            · next h => rw [h, hc]
            · rfl
  | some info => simp only [mget_mdel]

/-- Disconnecting a client that is not connected changes nothing for the others. -/
theorem SubInv.disconnect_dead {s : State} {h : List Op} (hi : SubInv s h) {c : Cid}
    (hc : connectedRev c h = false) : SubInv (disconnect s c) h where
  reg c' info hg := by
    rw [mget_disconnect] at hg
    split at hg
    · cases hg
    · exact hi.reg _ _ hg
  conn c' h' := by
    rw [mget_disconnect, if_neg]
    · exact hi.conn _ h'
    · rintro rfl; rw [hc] at h'; cases h'
  tree1 c' es hm := by
    rw [mem_subsAt_disconnect hi] at hm
    rw [mget_disconnect, if_neg hm.2]
    exact hi.tree1 _ _ hm.1
  tree2 c' es h' := by
    rw [mem_subsAt_disconnect hi, ← hi.tree2 c' es h']
    constructor
    · exact fun h => h.1
    · intro h; refine ⟨h, ?_⟩; rintro rfl; rw [hc] at h'; cases h'

theorem SubInv.disconnect_all {h : List Op} (l : List Cid) {s : State} (hi : SubInv s h)
    (hl : ∀ c ∈ l, connectedRev c h = false) : SubInv (l.foldl disconnect s) h := by
  induction l generalizing s with
  | nil => exact hi
  | cons c l ih =>
    rw [List.foldl_cons]
    exact ih (hi.disconnect_dead (hl c (List.mem_cons_self ..))) (fun c' hc' => hl c' (List.mem_cons_of_mem _ hc'))

theorem SubInv.reaches_iff {s : State} {h : List Op} (hi : SubInv s h) (c : Cid) :
    reaches s c = connectedRev c h := by
  unfold reaches
  cases hc : mget s.clients c with
  | none =>
    cases hb : connectedRev c h with
    | false => rfl
    | true => obtain ⟨i, h1⟩ := hi.conn c hb; rw [hc] at h1; cases h1
  | some info => exact (hi.reg _ _ hc).2

/-- Same registry, same subscribers. -/
theorem SubInv.congr {s s' : State} {h h' : List Op} (hi : SubInv s h)
    (hc : s'.clients = s.clients) (ht : ∀ es, subsAt es s'.tree = subsAt es s.tree)
    (hk : connects h' = connects h)
    (h1 : ∀ c, connectedRev c h' = connectedRev c h) (h2 : ∀ c es, holdsRev c es h' = holdsRev c es h) :
    SubInv s' h' where
  reg c info hg := by rw [hc] at hg; rw [hk, h1]; exact hi.reg _ _ hg
  conn c hb := by rw [hc]; rw [h1] at hb; exact hi.conn _ hb
  tree1 c es hm := by rw [hc]; rw [ht] at hm; exact hi.tree1 _ _ hm
  tree2 c es hb := by rw [ht, h2]; rw [h1] at hb; exact hi.tree2 _ _ hb

theorem SubInv.deliver {s : State} {h : List Op} (hi : SubInv s h) (topic : Str) (data : Bytes) :
    SubInv (deliver s topic data).1 h := by
  unfold PubSub.deliver
  simp only
  apply hi.disconnect_all
  intro c hc
  have := (List.mem_filter.1 hc).2
  rw [hi.reaches_iff] at this
  simpa using this

theorem SubInv.boot (db : List Row) (now unixNow : Nat) : SubInv (boot db now unixNow) [] where
  reg c info hg := by simp [PubSub.boot] at hg
  conn c hb := by simp [connectedRev] at hb
  tree1 c es hm := by
    have : ∀ (l : List Row) (t : Node), subsAt es (l.foldl (loadRow now unixNow) t) = subsAt es t := by
      intro l
      induction l with
      | nil => intro t; rfl
      | cons r l ih =>
        intro t
        rw [List.foldl_cons, ih]
        unfold loadRow
        simp only
        split
        · rfl
        · exact subsAt_setRetained
    simp only [PubSub.boot, this, subsAt_empty] at hm
    cases hm
  tree2 c es hb := by simp [connectedRev] at hb

theorem SubInv.step {dflt : Nat} {s : State} {h : List Op} (hi : SubInv s h) (op : Op)
    (hn : (connects (op :: h)).Nodup) : SubInv (step dflt s op).1 (op :: h) := by
  cases op with
  | connect c =>
    simp only [connects, List.nodup_cons] at hn
    have hnc : connectedRev c h = false := by
      cases hb : connectedRev c h with
      | false => rfl
      | true => exact absurd (connected_mem hb) hn.1
    have hnt : ∀ es, c ∉ subsAt es s.tree := by
      intro es hm
      obtain ⟨i, h1, _⟩ := hi.tree1 _ _ hm
      exact hn.1 (hi.reg _ _ h1).1
    refine ⟨?_, ?_, ?_, ?_⟩
    · intro c' info hg
      simp only [PubSub.step, mget_mset] at hg
      simp only [connects, connectedRev, List.mem_cons]
      split at hg
      · next hcc => cases hg; subst hcc; simp
      · next hcc =>
        obtain ⟨h1, h2⟩ := hi.reg _ _ hg
        refine ⟨Or.inr h1, ?_⟩
        rw [h2, decide_eq_false (fun h => hcc h.symm), Bool.false_or]
    · intro c' hb
      simp only [PubSub.step, mget_mset]
      simp only [connectedRev, Bool.or_eq_true, decide_eq_true_eq] at hb
      split
      · exact ⟨_, rfl⟩
      · next hcc => exact hi.conn _ (hb.elim (fun h => absurd h.symm hcc) id)
    · intro c' es hm
      simp only [PubSub.step] at hm ⊢
      rw [mget_mset]
      rw [if_neg (fun hcc : c' = c => hnt es (hcc ▸ hm))]
      exact hi.tree1 _ _ hm
    · intro c' es hb
      simp only [PubSub.step, holdsRev]
      simp only [connectedRev, Bool.or_eq_true, decide_eq_true_eq] at hb
      by_cases hcc : c = c'
      · subst hcc
        constructor
        · exact fun hm => absurd hm (hnt es)
        · exact fun hh => absurd (holds_mem hh) hn.1
      · exact hi.tree2 _ _ (hb.elim (fun h => absurd h hcc) id)
  | drop c =>
    refine ⟨?_, ?_, ?_, ?_⟩
    · intro c' info hg
      simp only [PubSub.step, mget_mupd] at hg
      simp only [connects, connectedRev]
      split at hg
      · next hcc =>
        subst hcc
        cases hm : mget s.clients c' with
        | none => rw [hm] at hg; cases hg
        | some i =>
          rw [hm] at hg; cases hg
          exact ⟨(hi.reg _ _ hm).1, by simp⟩
      · next hcc =>
        obtain ⟨h1, h2⟩ := hi.reg _ _ hg
        refine ⟨h1, ?_⟩
        simp only [h2, ne_eq, Ne.symm hcc, not_false_eq_true, decide_true, Bool.true_and]
    · intro c' hb
      simp only [connectedRev, Bool.and_eq_true, decide_eq_true_eq] at hb
      simp only [PubSub.step, mget_mupd]
      rw [if_neg (fun h => hb.1 h.symm)]
      exact hi.conn _ hb.2
    · intro c' es hm
      simp only [PubSub.step] at hm ⊢
      obtain ⟨i, h1, h2⟩ := hi.tree1 _ _ hm
      rw [mget_mupd]
      split
      · rw [h1]; exact ⟨_, rfl, h2⟩
      · exact ⟨i, h1, h2⟩
    · intro c' es hb
      simp only [connectedRev, Bool.and_eq_true, decide_eq_true_eq] at hb
      simp only [PubSub.step, holdsRev]
      rw [decide_eq_true hb.1, Bool.true_and]
      exact hi.tree2 _ _ hb.2
  | disconnect c =>
    refine ⟨?_, ?_, ?_, ?_⟩
    · intro c' info hg
      simp only [PubSub.step, mget_disconnect] at hg
      simp only [connects, connectedRev]
      split at hg
      · cases hg
      · next hcc =>
        obtain ⟨h1, h2⟩ := hi.reg _ _ hg
        refine ⟨h1, ?_⟩
        simp only [h2, ne_eq, Ne.symm hcc, not_false_eq_true, decide_true, Bool.true_and]
    · intro c' hb
      simp only [connectedRev, Bool.and_eq_true, decide_eq_true_eq] at hb
      simp only [PubSub.step, mget_disconnect]
      rw [if_neg (fun h => hb.1 h.symm)]
      exact hi.conn _ hb.2
    · intro c' es hm
      simp only [PubSub.step] at hm ⊢
      rw [mem_subsAt_disconnect hi] at hm
      rw [mget_disconnect, if_neg hm.2]
      exact hi.tree1 _ _ hm.1
    · intro c' es hb
      simp only [connectedRev, Bool.and_eq_true, decide_eq_true_eq] at hb
      simp only [PubSub.step, holdsRev]
      rw [mem_subsAt_disconnect hi, decide_eq_true hb.1, Bool.true_and, ← hi.tree2 _ _ hb.2]
      exact ⟨fun h => h.1, fun h => ⟨h, fun h => hb.1 h.symm⟩⟩
  | subscribe c p order now =>
    simp only [PubSub.step, subscribe]
    cases hg : mget s.clients c with
    | none =>
      simp only
      have hnc : connectedRev c h = false := by
        cases hb : connectedRev c h with
        | false => rfl
        | true => obtain ⟨i, h1⟩ := hi.conn c hb; rw [hg] at h1; cases h1
      refine hi.congr rfl (fun _ => rfl) rfl (fun _ => rfl) (fun c' es => ?_)
      simp only [holdsRev]
      by_cases hcc : c = c'
      · subst hcc; simp [hnc]
      · simp [hcc]
    | some info =>
      simp only
      refine ⟨?_, ?_, ?_, ?_⟩
      · intro c' info' hg'
        simp only [mget_mupd] at hg'
        simp only [connects, connectedRev]
        split at hg'
        · next hcc =>
          subst hcc
          rw [hg] at hg'
          have := hi.reg _ _ hg
          cases hg'; exact this
        · exact hi.reg _ _ hg'
      · intro c' hb
        simp only [connectedRev] at hb
        obtain ⟨i, h1⟩ := hi.conn _ hb
        simp only [mget_mupd]
        split
        · rw [h1]; exact ⟨_, rfl⟩
        · exact ⟨i, h1⟩
      · intro c' es hm
        simp only at hm ⊢
        rw [subsAt_insert] at hm
        rw [mget_mupd]
        rcases hm with hm | ⟨rfl, rfl⟩
        · obtain ⟨i, h1, q, h2, h3⟩ := hi.tree1 _ _ hm
          split
          · rw [h1]; exact ⟨_, rfl, q, mem_setInsert.2 (Or.inr h2), h3⟩
          · exact ⟨i, h1, q, h2, h3⟩
        · rw [if_pos rfl, hg]
          exact ⟨_, rfl, p, mem_setInsert.2 (Or.inl rfl), rfl⟩
      · intro c' es hb
        simp only [connectedRev] at hb
        simp only [holdsRev]
        rw [subsAt_insert, hi.tree2 _ _ hb, hb]
        simp only [Bool.or_eq_true, Bool.and_eq_true, decide_eq_true_eq, and_true]
        constructor
        · rintro (h1 | ⟨rfl, rfl⟩)
          · exact Or.inr h1
          · exact Or.inl ⟨rfl, rfl⟩
        · rintro (⟨rfl, rfl⟩ | h1)
          · exact Or.inr ⟨rfl, rfl⟩
          · exact Or.inl h1
  | unsubscribe c p =>
    simp only [PubSub.step, unsubscribe]
    refine ⟨?_, ?_, ?_, ?_⟩
    · intro c' info' hg'
      simp only [mget_mupd] at hg'
      simp only [connects, connectedRev]
      split at hg'
      · next hcc =>
        subst hcc
        cases hg : mget s.clients c' with
        | none => rw [hg] at hg'; cases hg'
        | some i => have := hi.reg _ _ hg; rw [hg] at hg'; cases hg'; exact this
      · exact hi.reg _ _ hg'
    · intro c' hb
      simp only [connectedRev] at hb
      obtain ⟨i, h1⟩ := hi.conn _ hb
      simp only [mget_mupd]
      split
      · rw [h1]; exact ⟨_, rfl⟩
      · exact ⟨i, h1⟩
    · intro c' es hm
      simp only at hm ⊢
      rw [subsAt_remove] at hm
      rw [mget_mupd]
      obtain ⟨i, h1, q, h2, h3⟩ := hi.tree1 _ _ hm.1
      split
      · next hcc =>
        rw [h1]
        refine ⟨_, rfl, q, mem_setRemove.2 ⟨h2, ?_⟩, h3⟩
        rintro rfl; exact hm.2 ⟨hcc, h3.symm⟩
      · exact ⟨i, h1, q, h2, h3⟩
    · intro c' es hb
      simp only [connectedRev] at hb
      simp only [holdsRev]
      rw [subsAt_remove, hi.tree2 _ _ hb]
      simp only [Bool.and_eq_true, Bool.not_eq_true', Bool.and_eq_false_iff, decide_eq_false_iff_not]
      constructor
      · rintro ⟨h1, h2⟩
        refine ⟨?_, h1⟩
        by_cases hcc : c = c'
        · exact Or.inr (fun he => h2 ⟨hcc.symm, he.symm⟩)
        · exact Or.inl hcc
      · rintro ⟨h1, h2⟩
        refine ⟨h2, ?_⟩
        rintro ⟨rfl, rfl⟩
        exact h1.elim (fun h => h rfl) (fun h => h rfl)
  | publish topic data keep ttl now unixNow =>
    have hh : ∀ s', s'.clients = s.clients → (∀ es, subsAt es s'.tree = subsAt es s.tree) →
        SubInv s' (.publish topic data keep ttl now unixNow :: h) :=
      fun s' h1 h2 => hi.congr h1 h2 rfl (fun _ => rfl) (fun _ _ => rfl)
    simp only [PubSub.step, publish]
    split
    · unfold retain
      split
      · next heq =>
        split at heq
        · cases heq; exact (hh { s with tree := setRetained _ (split topic) s.tree, dirty := true } rfl (fun _ => subsAt_setRetained)).deliver _ _
        · split at heq
          · cases heq; exact (hh { s with tree := setRetained _ (split topic) s.tree, dirty := true } rfl (fun _ => subsAt_setRetained)).deliver _ _
          · cases heq
      · exact hh _ rfl (fun _ => rfl)
    · exact (hh _ rfl (fun _ => rfl)).deliver _ _
  | cleanup now => exact hi.congr rfl (fun _ => subsAt_cleanup _ _ _) rfl (fun _ => rfl) (fun _ _ => rfl)
  | flush now ok =>
    simp only [PubSub.step]
    split <;> exact hi.congr rfl (fun _ => rfl) rfl (fun _ => rfl) (fun _ _ => rfl)

theorem connects_append (a b : List Op) : connects (a ++ b) = connects a ++ connects b := by
  induction a with
  | nil => rfl
  | cons o a ih => cases o <;> simp [connects, ih]

theorem connects_reverse (a : List Op) : connects a.reverse = (connects a).reverse := by
  induction a with
  | nil => rfl
  | cons o a ih =>
    rw [List.reverse_cons, connects_append, ih]
    cases o <;> simp [connects]

theorem run_append (dflt : Nat) (s : State) (a b : List Op) :
    (run dflt s (a ++ b)).1 = (run dflt (run dflt s a).1 b).1 := by
  induction a generalizing s with
  | nil => rfl
  | cons o a ih => simp only [List.cons_append, run, ih]

theorem run_snoc (dflt : Nat) (s : State) (a : List Op) (o : Op) :
    (run dflt s (a ++ [o])).1 = (step dflt (run dflt s a).1 o).1 := by
  rw [run_append]; rfl

theorem SubInv.of_run {dflt : Nat} {db : List Row} {t0 u0 : Nat} (h : List Op) (hn : (connects h).Nodup) :
    SubInv (run dflt (PubSub.boot db t0 u0) h).1 h.reverse := by
  rw [← List.reverse_reverse h] at hn ⊢
  generalize h.reverse = r at hn ⊢
  rw [List.reverse_reverse]
  induction r with
  | nil => exact SubInv.boot db t0 u0
  | cons o r ih =>
    rw [List.reverse_cons] at hn ⊢
    rw [run_snoc]
    apply (ih ?_).step
    · rw [connects_append, connects_reverse] at hn
      have : (connects [o] ++ connects r).Nodup := by
        rw [List.nodup_append] at hn ⊢
        refine ⟨hn.2.1, (List.reverse_perm _).nodup_iff.1 hn.1, ?_⟩
        intro a ha b hb hab
        exact hn.2.2 b (List.mem_reverse.2 hb) a ha hab.symm
      rw [← connects_append] at this
      exact this
    · rw [connects_append] at hn; exact (List.nodup_append.1 hn).1

/-! ### Subscriptions named by proper patterns -/

/-- All patterns of the history are proper. -/
def Proper (h : List Op) : Prop := ∀ o ∈ h, o.proper = true

theorem holds_iff {c : Cid} {es : List Edge} {h : List Op} (hp : Proper h) :
    holdsRev c es h = true ↔ ∃ p, hashLast (split p) = true ∧ edges (split p) = es ∧ subscribedRev c p h = true := by
  induction h with
  | nil => simp [holdsRev, subscribedRev]
  | cons o h ih =>
    have hp' : Proper h := fun x hx => hp x (List.mem_cons_of_mem _ hx)
    have ho := hp o (List.mem_cons_self ..)
    have ih := ih hp'
    cases o with
    | subscribe c' p' order now =>
      simp only [Op.proper] at ho
      simp only [holdsRev, subscribedRev, Bool.or_eq_true, Bool.and_eq_true, decide_eq_true_eq, ih]
      constructor
      · rintro (⟨⟨rfl, rfl⟩, h3⟩ | ⟨p, h1, h2, h3⟩)
        · exact ⟨p', ho, rfl, Or.inl ⟨⟨rfl, rfl⟩, h3⟩⟩
        · exact ⟨p, h1, h2, Or.inr h3⟩
      · rintro ⟨p, h1, h2, (⟨⟨rfl, rfl⟩, h3⟩ | h3)⟩
        · exact Or.inl ⟨⟨rfl, h2⟩, h3⟩
        · exact Or.inr ⟨p, h1, h2, h3⟩
    | unsubscribe c' p' =>
      simp only [Op.proper] at ho
      simp only [holdsRev, subscribedRev, Bool.and_eq_true, Bool.not_eq_true', Bool.and_eq_false_iff,
        decide_eq_false_iff_not, ih]
      constructor
      · rintro ⟨h1, p, h2, h3, h4⟩
        refine ⟨p, h2, h3, ?_, h4⟩
        rcases h1 with h1 | h1
        · exact Or.inl h1
        · refine Or.inr ?_; rintro rfl; exact h1 h3
      · rintro ⟨p, h2, h3, h1, h4⟩
        refine ⟨?_, p, h2, h3, h4⟩
        rcases h1 with h1 | h1
        · exact Or.inl h1
        · refine Or.inr (fun he => h1 (split_inj (edges_inj ho h2 (he.trans h3.symm))))
    | drop c' =>
      simp only [holdsRev, subscribedRev, Bool.and_eq_true, decide_eq_true_eq, ih]
      constructor
      · rintro ⟨h1, p, h2, h3, h4⟩; exact ⟨p, h2, h3, h1, h4⟩
      · rintro ⟨p, h2, h3, h1, h4⟩; exact ⟨h1, p, h2, h3, h4⟩
    | disconnect c' =>
      simp only [holdsRev, subscribedRev, Bool.and_eq_true, decide_eq_true_eq, ih]
      constructor
      · rintro ⟨h1, p, h2, h3, h4⟩; exact ⟨p, h2, h3, h1, h4⟩
      · rintro ⟨p, h2, h3, h1, h4⟩; exact ⟨h1, p, h2, h3, h4⟩
    | connect c' => exact ih
    | publish a b d e f g => exact ih
    | cleanup a => exact ih
    | flush a b => exact ih

/-- In a proper history every held pattern is proper. -/
theorem subscribed_proper {c : Cid} {p : Str} {h : List Op} (hp : Proper h) (hs : subscribedRev c p h = true) :
    hashLast (split p) = true := by
  induction h with
  | nil => simp [subscribedRev] at hs
  | cons o h ih =>
    have ih := ih (fun x hx => hp x (List.mem_cons_of_mem _ hx))
    have ho := hp o (List.mem_cons_self ..)
    cases o <;> simp only [subscribedRev, Bool.or_eq_true, Bool.and_eq_true, decide_eq_true_eq] at hs
    case subscribe c' p' a b =>
      rcases hs with hs | hs
      · rw [← hs.1.2]; exact ho
      · exact ih hs
    case unsubscribe => exact ih hs.2
    case drop => exact ih hs.2
    case disconnect => exact ih hs.2
    all_goals exact ih hs

/-! ### Delivery -/

theorem mem_dedup [DecidableEq α] {a : α} {seen l : List α} : a ∈ dedup seen l ↔ a ∈ l ∧ a ∉ seen := by
  induction l generalizing seen with
  | nil => simp [dedup]
  | cons b l ih =>
    unfold dedup
    split
    · next hb =>
      rw [ih, List.mem_cons]
      constructor
      · rintro ⟨h1, h2⟩; exact ⟨Or.inr h1, h2⟩
      · rintro ⟨rfl | h1, h2⟩
        · exact absurd hb h2
        · exact ⟨h1, h2⟩
    · next hb =>
      rw [List.mem_cons, ih, List.mem_cons, List.mem_cons]
      constructor
      · rintro (rfl | ⟨h1, h2⟩)
        · exact ⟨Or.inl rfl, hb⟩
        · exact ⟨Or.inr h1, fun h => h2 (Or.inr h)⟩
      · rintro ⟨rfl | h1, h2⟩
        · exact Or.inl rfl
        · by_cases hab : a = b
          · exact Or.inl hab
          · exact Or.inr ⟨h1, fun h => h.elim hab h2⟩

theorem dedup_nodup [DecidableEq α] (seen l : List α) : (dedup seen l).Nodup := by
  induction l generalizing seen with
  | nil => simp [dedup]
  | cons b l ih =>
    unfold dedup
    split
    · exact ih _
    · rw [List.nodup_cons]
      refine ⟨?_, ih _⟩
      rw [mem_dedup]
      rintro ⟨_, h⟩; exact h (List.mem_cons_self ..)

/-- Does the call get as far as routing? -/
def reachesRouting (dflt : Nat) (data : Bytes) (keep : Bool) (ttl : Option Nat) (now : Nat) : Bool :=
  !keep || data.isEmpty || representable now (ttl.getD dflt)

theorem instantAdd_eq (now secs : Nat) :
    Store.instantAdd now secs = if representable now secs then some (now + secs * second) else none := by
  unfold Store.instantAdd representable Store.nanos second
  simp only [Nat.div_lt_iff_lt_mul (show 0 < 1000000000 by decide), decide_eq_true_eq]

theorem retained_new_eq (data : Bytes) (secs now unixNow : Nat) :
    Retained.new data secs now unixNow
      = if representable now secs then some ⟨data, some (now + secs * second), some (unixNow + secs)⟩ else none := by
  unfold Retained.new
  rw [instantAdd_eq]
  by_cases hr : representable now secs = true
  · rw [if_pos hr, if_pos hr, Option.map_some]
  · rw [if_neg hr, if_neg hr, Option.map_none]

/-- The state in which routing takes place. -/
theorem publish_eq {dflt : Nat} {s : State} {topic : Str} {data : Bytes} {keep : Bool} {ttl : Option Nat}
    {now unixNow : Nat} (hr : reachesRouting dflt data keep ttl now = true) :
    ∃ s', publish dflt s topic data keep ttl now unixNow = deliver s' topic data ∧ s'.clients = s.clients
      ∧ (∀ es, subsAt es s'.tree = subsAt es s.tree) := by
  unfold publish
  cases keep with
  | false => exact ⟨s, rfl, rfl, fun _ => rfl⟩
  | true =>
    simp only [if_true]
    unfold retain
    by_cases hd : data.isEmpty = true
    · rw [if_pos hd]
      exact ⟨_, rfl, rfl, fun _ => subsAt_setRetained⟩
    · rw [if_neg hd, retained_new_eq]
      have : representable now (ttl.getD dflt) = true := by
        simp only [reachesRouting, Bool.not_true, Bool.false_or, Bool.or_eq_true] at hr
        exact hr.resolve_left hd
      rw [this]
      exact ⟨_, rfl, rfl, fun _ => subsAt_setRetained⟩

theorem publish_panics {dflt : Nat} {s : State} {topic : Str} {data : Bytes} {keep : Bool} {ttl : Option Nat}
    {now unixNow : Nat} (hr : reachesRouting dflt data keep ttl now = false) :
    publish dflt s topic data keep ttl now unixNow = (s, { panicked := true }) := by
  simp only [reachesRouting, Bool.or_eq_false_iff, Bool.not_eq_false'] at hr
  unfold publish retain
  rw [retained_new_eq, hr.1.1, hr.1.2, hr.2]
  rfl

theorem mem_deliver {s : State} {topic : Str} {data : Bytes} {c : Cid} {m : Msg} :
    (c, m) ∈ (deliver s topic data).2.sent
      ↔ m = ⟨topic, data⟩ ∧ reaches s c = true ∧ ∃ es, c ∈ subsAt es s.tree ∧ EMatch es (split topic) := by
  unfold deliver
  simp only [List.mem_map, List.mem_filter, mem_dedup, Prod.mk.injEq]
  constructor
  · rintro ⟨c', ⟨⟨h1, _⟩, h2⟩, rfl, rfl⟩
    exact ⟨rfl, h2, mem_matchSubs.1 h1⟩
  · rintro ⟨rfl, h2, h1⟩
    exact ⟨c, ⟨⟨mem_matchSubs.2 h1, by simp⟩, h2⟩, rfl, rfl⟩

theorem deliver_nodup (s : State) (topic : Str) (data : Bytes) :
    ((deliver s topic data).2.sent.map (·.1)).Nodup := by
  unfold deliver
  simp only [List.map_map]
  have : ((fun x : Cid × Msg => x.1) ∘ fun c => (c, Msg.mk topic data)) = id := rfl
  rw [this, List.map_id]
  exact (dedup_nodup _ _).sublist List.filter_sublist

theorem deliver_count (s : State) (topic : Str) (data : Bytes) :
    (deliver s topic data).2.count = (deliver s topic data).2.sent.length := by
  simp [deliver]

/-! ### Retained values -/

def Retained.kept (r : Retained) : Kept := ⟨r.data, r.expiresAt, r.expiresUnix⟩

theorem kept_live (r : Retained) (now : Nat) : r.kept.live now = !r.expired now := by
  unfold Retained.kept Kept.live Retained.expired
  cases r.expiresAt with
  | none => rfl
  | some e =>
    simp only
    by_cases h : e ≤ now
    · rw [decide_eq_true h, decide_eq_false (by omega)]; rfl
    · rw [decide_eq_false h, decide_eq_true (by omega)]; rfl

theorem live_mono {k : Kept} {t t' : Nat} (h : k.live t = false) (ht : t ≤ t') : k.live t' = false := by
  unfold Kept.live at *
  cases hk : k.until_ with
  | none => rw [hk] at h; simp at h
  | some e => rw [hk] at h; simp at h ⊢; omega

/-- The retained values against the history (newest first), at a time. -/
structure RetInv (dflt : Nat) (base : Str → Option Kept) (t : Nat) (s : State) (h : List Op) : Prop where
  wf : WF s.tree
  sound : ∀ ps r, retAt ps s.tree = some r → ∃ topic, ps = split topic ∧ keptRev dflt base topic h = some r.kept
  complete : ∀ topic k, keptRev dflt base topic h = some k →
    (∃ r, retAt (split topic) s.tree = some r ∧ r.kept = k) ∨ (retAt (split topic) s.tree = none ∧ k.live t = false)

theorem RetInv.later {dflt : Nat} {base : Str → Option Kept} {t t' : Nat} {s : State} {h : List Op}
    (hi : RetInv dflt base t s h) (ht : t ≤ t') : RetInv dflt base t' s h where
  wf := hi.wf
  sound := hi.sound
  complete topic k hk := (hi.complete topic k hk).imp id (fun h => ⟨h.1, live_mono h.2 ht⟩)

theorem RetInv.congr {dflt : Nat} {base : Str → Option Kept} {t : Nat} {s s' : State} {h h' : List Op}
    (hi : RetInv dflt base t s h) (hw : WF s'.tree) (hr : ∀ ps, retAt ps s'.tree = retAt ps s.tree)
    (hk : ∀ topic, keptRev dflt base topic h' = keptRev dflt base topic h) : RetInv dflt base t s' h' where
  wf := hw
  sound ps r h := by rw [hr] at h; obtain ⟨a, b, c⟩ := hi.sound ps r h; exact ⟨a, b, hk a ▸ c⟩
  complete topic k h := by rw [hk] at h; rw [hr]; exact hi.complete topic k h

theorem retAt_disconnect (s : State) (c : Cid) (ps : List Str) :
    retAt ps (disconnect s c).tree = retAt ps s.tree := by
  unfold disconnect
  cases mget s.clients c with
  | none => rfl
  | some info => exact retAt_foldl_remove _ _

theorem wf_disconnect {s : State} (h : WF s.tree) (c : Cid) : WF (disconnect s c).tree := by
  unfold disconnect
  cases mget s.clients c with
  | none => exact h
  | some info => exact wf_foldl_remove _ h

theorem disconnect_all_ret (l : List Cid) (s : State) :
    (∀ ps, retAt ps (l.foldl disconnect s).tree = retAt ps s.tree) ∧ (WF s.tree → WF (l.foldl disconnect s).tree)
      ∧ (l.foldl disconnect s).dirty = s.dirty ∧ (l.foldl disconnect s).db = s.db := by
  induction l generalizing s with
  | nil => exact ⟨fun _ => rfl, id, rfl, rfl⟩
  | cons c l ih =>
    rw [List.foldl_cons]
    obtain ⟨h1, h2, h3, h4⟩ := ih (disconnect s c)
    refine ⟨fun ps => (h1 ps).trans (retAt_disconnect s c ps), fun h => h2 (wf_disconnect h c), h3.trans ?_, h4.trans ?_⟩
    · unfold disconnect; cases mget s.clients c <;> rfl
    · unfold disconnect; cases mget s.clients c <;> rfl

theorem deliver_ret (s : State) (topic : Str) (data : Bytes) :
    (∀ ps, retAt ps (deliver s topic data).1.tree = retAt ps s.tree) ∧ (WF s.tree → WF (deliver s topic data).1.tree)
      ∧ (deliver s topic data).1.dirty = s.dirty ∧ (deliver s topic data).1.db = s.db :=
  disconnect_all_ret _ _

/-- Reading of a clock by an operation, if any. -/
def Op.time : Op → Option Nat
  | .subscribe _ _ _ now => some now
  | .publish _ _ _ _ now _ => some now
  | .cleanup now => some now
  | .flush now _ => some now
  | _ => none

/-- What a publish does to the retained values. -/
theorem publish_ret (dflt : Nat) (s : State) (topic : Str) (data : Bytes) (keep : Bool) (ttl : Option Nat)
    (now unixNow : Nat) :
    (∀ ps, retAt ps (publish dflt s topic data keep ttl now unixNow).1.tree =
      if keep = true ∧ ps = split topic then
        if data = [] then none
        else if representable now (ttl.getD dflt) then
          some ⟨data, some (now + ttl.getD dflt * second), some (unixNow + ttl.getD dflt)⟩
        else retAt ps s.tree
      else retAt ps s.tree)
    ∧ (WF s.tree → WF (publish dflt s topic data keep ttl now unixNow).1.tree)
    ∧ (publish dflt s topic data keep ttl now unixNow).1.db = s.db
    ∧ (publish dflt s topic data keep ttl now unixNow).1.dirty
        = (s.dirty || (keep && (data.isEmpty || representable now (ttl.getD dflt)))) := by
  unfold publish
  cases keep with
  | false =>
    obtain ⟨h1, h2, h3, h4⟩ := deliver_ret s topic data
    refine ⟨fun ps => ?_, h2, h4, ?_⟩
    · simp only [Bool.false_eq_true, if_false, h1, false_and]
    · simp only [Bool.false_eq_true, if_false, h3, Bool.false_and, Bool.or_false]
  | true =>
    simp only [if_true, true_and]
    unfold retain
    by_cases hd : data = []
    · subst hd
      simp only [List.isEmpty_nil, if_true]
      obtain ⟨h1, h2, h3, h4⟩ := deliver_ret { s with tree := setRetained none (split topic) s.tree, dirty := true } topic []
      refine ⟨fun ps => ?_, fun h => h2 h.setRetained, h4, ?_⟩
      · rw [h1, retAt_setRetained]
      · rw [h3]; simp
    · have hd' : data.isEmpty = false := by cases data <;> simp_all
      rw [hd', retained_new_eq]
      cases hr : representable now (ttl.getD dflt) with
      | false =>
        simp only [Bool.false_eq_true, if_false, hd]
        refine ⟨fun ps => ?_, id, trivial, by simp⟩
        split <;> rfl
      | true =>
        simp only [if_true, hd, Bool.false_eq_true, if_false]
        obtain ⟨h1, h2, h3, h4⟩ := deliver_ret { s with tree := setRetained (some ⟨data, some (now + ttl.getD dflt * second), some (unixNow + ttl.getD dflt)⟩) (split topic) s.tree, dirty := true } topic data
        refine ⟨fun ps => ?_, fun h => h2 h.setRetained, h4, ?_⟩
        · rw [h1, retAt_setRetained]
        · rw [h3]; simp

theorem RetInv.step {dflt : Nat} {base : Str → Option Kept} {t : Nat} {s : State} {h : List Op}
    (hi : RetInv dflt base t s h) (op : Op) (ht : t ≤ op.time.getD t) :
    RetInv dflt base (op.time.getD t) (step dflt s op).1 (op :: h) := by
  have hk : ∀ topic, (∀ a b d e f, op ≠ .publish a b true d e f) →
      keptRev dflt base topic (op :: h) = keptRev dflt base topic h := by
    intro topic hne
    cases op with
    | publish a b keep d e f =>
      cases keep with
      | false => rfl
      | true => exact absurd rfl (hne a b d e f)
    | _ => rfl
  have hi := hi.later ht
  cases op with
  | connect c => exact hi.congr hi.wf (fun _ => rfl) (fun _ => rfl)
  | drop c => exact hi.congr hi.wf (fun _ => rfl) (fun _ => rfl)
  | disconnect c =>
    exact hi.congr (wf_disconnect hi.wf c) (fun _ => retAt_disconnect s c _) (fun _ => rfl)
  | subscribe c p order now =>
    simp only [PubSub.step, subscribe]
    cases mget s.clients c with
    | none => exact hi.congr hi.wf (fun _ => rfl) (fun _ => rfl)
    | some info => exact hi.congr hi.wf.insert (fun _ => retAt_insert) (fun _ => rfl)
  | unsubscribe c p => exact hi.congr hi.wf.remove (fun _ => retAt_remove) (fun _ => rfl)
  | cleanup now =>
    simp only [Op.time, Option.getD_some] at hi ⊢
    refine ⟨hi.wf.cleanup, ?_, ?_⟩
    · intro ps r hr
      simp only [PubSub.step, retAt_cleanup] at hr
      cases hg : retAt ps s.tree with
      | none => rw [hg] at hr; cases hr
      | some r' =>
        rw [hg] at hr
        simp only [Option.filter] at hr
        split at hr
        · cases hr; exact hi.sound ps _ hg
        · cases hr
    · intro topic k hk
      simp only [PubSub.step, retAt_cleanup]
      rcases hi.complete topic k hk with ⟨r, h1, h2⟩ | ⟨h1, h2⟩
      · rw [h1]
        cases he : r.expired now with
        | false => left; exact ⟨r, by simp [Option.filter, he], h2⟩
        | true =>
          right
          refine ⟨by simp [Option.filter, he], ?_⟩
          rw [← h2, kept_live, he]; rfl
      · right; rw [h1]; exact ⟨rfl, h2⟩
  | flush now ok =>
    simp only [PubSub.step]
    split <;> exact hi.congr hi.wf (fun _ => rfl) (fun _ => rfl)
  | publish topic data keep ttl now unixNow =>
    obtain ⟨h1, h2, _, _⟩ := publish_ret dflt s topic data keep ttl now unixNow
    simp only [PubSub.step]
    cases keep with
    | false =>
      refine hi.congr (h2 hi.wf) (fun ps => ?_) (fun _ => rfl)
      rw [h1]; simp
    | true =>
      refine ⟨h2 hi.wf, ?_, ?_⟩
      · intro ps r hr
        rw [h1] at hr
        simp only [true_and] at hr
        by_cases hps : ps = split topic
        · rw [if_pos hps] at hr
          refine ⟨topic, hps, ?_⟩
          simp only [keptRev, if_true]
          by_cases hd : data = []
          · rw [if_pos hd] at hr; cases hr
          · rw [if_neg hd] at hr ⊢
            split at hr
            · next hrep => rw [if_pos hrep]; cases hr; rfl
            · next hrep =>
              rw [if_neg hrep]
              obtain ⟨topic', he, hk'⟩ := hi.sound ps r hr
              rw [split_inj (hps.symm.trans he)]
              exact hk'
        · rw [if_neg hps] at hr
          obtain ⟨topic', he, hk'⟩ := hi.sound ps r hr
          refine ⟨topic', he, ?_⟩
          simp only [keptRev]
          rw [if_neg (fun h : topic = topic' => hps (h ▸ he))]
          exact hk'
      · intro topic' k hk'
        rw [h1]
        simp only [true_and]
        by_cases htt : topic = topic'
        · subst htt
          rw [if_pos rfl]
          simp only [keptRev, if_true] at hk'
          by_cases hd : data = []
          · rw [if_pos hd] at hk'; cases hk'
          · rw [if_neg hd] at hk' ⊢
            split at hk'
            · next hrep =>
              rw [if_pos hrep]
              left
              cases hk'
              exact ⟨_, rfl, rfl⟩
            · next hrep => rw [if_neg hrep]; exact hi.complete _ _ hk'
        · rw [if_neg (fun h => htt (split_inj h).symm)]
          simp only [keptRev] at hk'
          rw [if_neg htt] at hk'
          exact hi.complete _ _ hk'

theorem fromPersisted_kept (data : Bytes) (u : Option Nat) (now unixNow : Nat) :
    (Retained.fromPersisted data u now unixNow).kept
      = ⟨data, (match u with | some u => if unixNow < u then some (now + (u - unixNow) * second) else none | none => none), u⟩ := by
  unfold Retained.fromPersisted Retained.kept
  simp only
  cases u with
  | none => rfl
  | some u => rfl

theorem fromPersisted_live (data : Bytes) (u : Option Nat) (now unixNow : Nat) :
    (Retained.fromPersisted data u now unixNow).expired now = false := by
  unfold Retained.fromPersisted Retained.expired
  cases u with
  | none => rfl
  | some u =>
    simp only
    split
    · next h =>
      split at h
      · next hu =>
        cases h
        apply decide_eq_false
        have : 0 < (u - unixNow) * Store.nanos := Nat.mul_pos (by omega) (by decide)
        omega
      · cases h
    · rfl

theorem boot_ret (now unixNow : Nat) (db : List Row) (t : Node) (hn : MWF db) :
    (∀ topic v, mget db topic = some v →
      retAt (split topic) (db.foldl (loadRow now unixNow) t) = some (Retained.fromPersisted v.1 v.2 now unixNow))
    ∧ (∀ ps, (∀ topic, ps = split topic → mget db topic = none) →
      retAt ps (db.foldl (loadRow now unixNow) t) = retAt ps t)
    ∧ (WF t → WF (db.foldl (loadRow now unixNow) t)) := by
  induction db generalizing t with
  | nil => exact ⟨fun _ _ h => (by cases h), fun _ _ => rfl, id⟩
  | cons row db ih =>
    simp only [MWF, List.map_cons, List.nodup_cons] at hn
    have hl : ∀ t, loadRow now unixNow t row
        = setRetained (some (Retained.fromPersisted row.2.1 row.2.2 now unixNow)) (split row.1) t := by
      intro t
      unfold loadRow
      simp only [fromPersisted_live, Bool.false_eq_true, if_false]
    rw [List.foldl_cons]
    obtain ⟨h1, h2, h3⟩ := ih (loadRow now unixNow t row) hn.2
    refine ⟨?_, ?_, ?_⟩
    · intro topic v hv
      rw [mget_cons] at hv
      split at hv
      · next he =>
        cases hv
        rw [h2, hl, retAt_setRetained, if_pos (by rw [he])]
        intro topic' ht
        rw [← split_inj ht, ← he]
        exact mget_eq_none.2 hn.1
      · exact h1 topic v hv
    · intro ps hps
      rw [h2, hl, retAt_setRetained, if_neg]
      · intro he
        have := hps _ he
        rw [mget_cons, if_pos rfl] at this
        cases this
      · intro topic ht
        have := hps topic ht
        rw [mget_cons] at this
        split at this
        · cases this
        · exact this
    · intro hw
      apply h3
      rw [hl]
      exact hw.setRetained

theorem RetInv.boot {dflt : Nat} {db : List Row} (hn : MWF db) (t0 u0 : Nat) :
    RetInv dflt (baseOf db t0 u0) t0 (PubSub.boot db t0 u0) [] := by
  obtain ⟨h1, h2, h3⟩ := boot_ret t0 u0 db .empty hn
  have hb : ∀ topic, keptRev dflt (baseOf db t0 u0) topic [] = (mget db topic).map
      (fun v => (Retained.fromPersisted v.1 v.2 t0 u0).kept) := by
    intro topic
    simp only [keptRev, baseOf]
    cases hm : mget db topic with
    | none => rfl
    | some v =>
      obtain ⟨d, u⟩ := v
      simp only [Option.map_some, fromPersisted_kept]
      cases u <;> rfl
  refine ⟨h3 WF.empty, ?_, ?_⟩
  · intro ps r hr
    simp only [PubSub.boot] at hr
    by_cases hex : ∃ topic, ps = split topic ∧ mget db topic ≠ none
    · obtain ⟨topic, rfl, hne⟩ := hex
      refine ⟨topic, rfl, ?_⟩
      cases hm : mget db topic with
      | none => exact absurd hm hne
      | some v =>
        rw [h1 _ _ hm] at hr
        cases hr
        rw [hb, hm]; rfl
    · rw [h2 ps (fun topic ht => Classical.byContradiction (fun hne => hex ⟨topic, ht, hne⟩)), retAt_empty] at hr
      cases hr
  · intro topic k hk
    rw [hb] at hk
    cases hm : mget db topic with
    | none => rw [hm] at hk; cases hk
    | some v =>
      rw [hm] at hk
      cases hk
      exact Or.inl ⟨_, h1 _ _ hm, rfl⟩

theorem times_append (a b : List Op) : times (a ++ b) = times a ++ times b := by
  induction a with
  | nil => rfl
  | cons o a ih => cases o <;> simp [times, ih]

theorem times_single (o : Op) : times [o] = o.time.toList := by cases o <;> rfl

/-- The latest clock reading. -/
def lastTime (start : Nat) (h : List Op) : Nat := (start :: times h).getLast (by simp)

theorem lastTime_snoc (start : Nat) (h : List Op) (o : Op) :
    lastTime start (h ++ [o]) = o.time.getD (lastTime start h) := by
  unfold lastTime
  cases o <;> simp [times_append, times, Op.time] <;> exact List.getLast_concat (l := start :: times h)

theorem Valid.init {start : Nat} {h : List Op} {o : Op} (hv : Valid start (h ++ [o])) :
    Valid start h ∧ lastTime start h ≤ o.time.getD (lastTime start h) := by
  obtain ⟨h1, h2⟩ := hv
  rw [connects_append] at h1
  rw [times_append, ← List.cons_append, List.pairwise_append] at h2
  refine ⟨⟨(List.nodup_append.1 h1).1, h2.1⟩, ?_⟩
  cases ht : o.time with
  | none => exact Nat.le_refl _
  | some n =>
    apply h2.2.2 _ (List.getLast_mem _)
    rw [times_single, ht]; simp

theorem RetInv.of_run {dflt : Nat} {db : List Row} (hn : MWF db) {t0 u0 : Nat} (h : List Op) (hv : Valid t0 h) :
    RetInv dflt (baseOf db t0 u0) (lastTime t0 h) (run dflt (PubSub.boot db t0 u0) h).1 h.reverse := by
  rw [← List.reverse_reverse h] at hv ⊢
  generalize h.reverse = r at hv ⊢
  rw [List.reverse_reverse]
  induction r with
  | nil => exact RetInv.boot hn t0 u0
  | cons o r ih =>
    rw [List.reverse_cons] at hv ⊢
    obtain ⟨h1, h2⟩ := hv.init
    rw [run_snoc, lastTime_snoc]
    exact (ih h1).step o h2

/-- What a new subscription is sent. -/
theorem subscribe_sent {dflt : Nat} {s : State} {h : List Op} (hi : SubInv s h) {c : Cid} {p : Str}
    {order : List Msg} {now : Nat} (hw : WF s.tree) (hc : connectedRev c h = true) :
    (step dflt s (.subscribe c p order now)).2.sent.Perm
      (((entries (insertSub c (split p) s.tree)).filter (fun e => matchB (split p) e.1 && !e.2.expired now)).map
        (fun e => (c, Msg.mk (stripLabel (pathOf [] e.1)) e.2.data))) := by
  obtain ⟨info, hg⟩ := hi.conn c hc
  have ha : info.alive = true := by rw [(hi.reg _ _ hg).2, hc]
  simp only [step, subscribe, hg, ha, if_true]
  rw [collectPattern_eq now _ _ _ hw.insert]
  have : (fun e : List Str × Retained => (c, Msg.mk (stripLabel (pathOf [] e.1)) e.2.data))
      = (fun m : Msg => (c, m)) ∘ (fun e => Msg.mk (stripLabel (pathOf [] e.1)) e.2.data) := rfl
  rw [this, ← List.map_map (g := fun m : Msg => (c, m))]
  apply List.Perm.map
  rw [List.map_map]
  split
  · next hp => exact List.isPerm_iff.1 hp
  · exact List.Perm.refl _

end Verif.PubSub
