import Verif.Spec.PubSubScan
import Verif.Proofs.PubSubScan
import Verif.Props.PubSub

/-! # Property C76: the dashboard shows publish/subscribe as it is -/

namespace Verif.PubSub

theorem good_disconnect {s : State} (h : Good s.tree) (c : Cid) : Good (disconnect s c).tree := by
  unfold disconnect
  split
  · exact h.foldl_remove c _
  · exact h

theorem good_step {dflt : Nat} {s : State} (h : Good s.tree) (o : Op) : Good (step dflt s o).1.tree := by
  cases o with
  | connect c => exact h
  | drop c => exact h
  | disconnect c => exact good_disconnect h c
  | subscribe c p order now =>
    simp only [step, subscribe]
    split
    · exact h
    · exact h.insert c _
  | unsubscribe c p => exact h.remove c _
  | publish topic data keep ttl now unixNow =>
    have hd : ∀ s : State, Good s.tree → Good (deliver s topic data).1.tree := by
      intro s hs
      simp only [deliver]
      generalize ((dedup [] (matchSubs (split topic) s.tree)).filter (fun c => !reaches s c)) = l
      induction l generalizing s with
      | nil => exact hs
      | cons c l ih => exact ih _ (good_disconnect hs c)
    simp only [step, publish]
    split
    · split
      · next s' hr =>
        refine hd s' ?_
        unfold retain at hr
        split at hr
        · cases hr; exact h.setRetained _ _
        · split at hr
          · cases hr; exact h.setRetained _ _
          · cases hr
      · exact h
    · exact hd s h
  | cleanup now => exact h.cleanup now
  | flush now ok => simp only [step]; split <;> exact h

theorem good_run {dflt : Nat} {s : State} (h : Good s.tree) (l : List Op) : Good (run dflt s l).1.tree := by
  induction l generalizing s with
  | nil => exact h
  | cons o l ih => exact ih (good_step h o)

theorem good_boot (db : List Row) (t0 u0 : Nat) : Good (boot db t0 u0).tree := by
  suffices h : ∀ t : Node, Good t → Good (db.foldl (loadRow t0 u0) t) from h _ Bare.empty.good
  induction db with
  | nil => exact fun t h => h
  | cons r db ih =>
    intro t h
    refine ih _ ?_
    unfold loadRow
    simp only
    split
    · exact h
    · exact h.setRetained _ _

theorem named_label {p : Str} (h : named p = true) : pathOf [] (split p) = p := by
  rw [pathOf_split]
  cases p with
  | nil => cases h
  | cons c t =>
    simp only [named, decide_eq_true_eq] at h
    rw [List.dropWhile_cons, if_neg (by simpa using h)]

theorem noWild_iff {p : Str} : noWild p = true ↔ ∀ s ∈ split p, s ≠ plusS ∧ s ≠ hashS := by
  simp [noWild, List.all_eq_true]

/-- Without failed receivers every registered client is alive. -/
theorem alive_run {dflt : Nat} {s : State} (hs : ∀ c info, mget s.clients c = some info → info.alive = true) (l : List Op)
    (hd : ∀ c, Op.drop c ∉ l) : ∀ c info, mget (run dflt s l).1.clients c = some info → info.alive = true := by
  induction l generalizing s with
  | nil => exact hs
  | cons o l ih =>
    refine ih ?_ (fun c h => hd c (List.mem_cons_of_mem _ h))
    have hdisc : ∀ (s : State) (d : Cid), (∀ c info, mget s.clients c = some info → info.alive = true) →
        ∀ c info, mget (disconnect s d).clients c = some info → info.alive = true := by
      intro s d hs c info h
      unfold disconnect at h
      split at h
      · simp only at h
        rw [mget_mdel] at h
        split at h
        · cases h
        · exact hs c info h
      · exact hs c info h
    have hdel : ∀ (s : State) (topic : Str) (data : Bytes), (∀ c info, mget s.clients c = some info → info.alive = true) →
        ∀ c info, mget (deliver s topic data).1.clients c = some info → info.alive = true := by
      intro s topic data hs
      simp only [deliver]
      generalize ((dedup [] (matchSubs (split topic) s.tree)).filter (fun c => !reaches s c)) = z
      induction z generalizing s with
      | nil => exact hs
      | cons c l ih => exact ih _ (hdisc s c hs)
    intro c info h
    cases o with
    | connect d =>
      simp only [step] at h
      rw [mget_mset] at h
      split at h
      · cases h; rfl
      · exact hs c info h
    | drop d => exact absurd (List.mem_cons_self ..) (hd d)
    | disconnect d => exact hdisc s d hs c info h
    | subscribe d p order now =>
      simp only [step, subscribe] at h
      split at h
      · exact hs c info h
      · simp only at h
        rw [mget_mupd] at h
        split at h
        · cases hc : mget s.clients c with
          | none => rw [hc] at h; cases h
          | some i => rw [hc] at h; cases h; exact hs c i hc
        · exact hs c info h
    | unsubscribe d p =>
      simp only [step, unsubscribe] at h
      rw [mget_mupd] at h
      split at h
      · cases hc : mget s.clients c with
        | none => rw [hc] at h; cases h
        | some i => rw [hc] at h; cases h; exact hs c i hc
      · exact hs c info h
    | publish topic data keep ttl now unixNow =>
      simp only [step, publish] at h
      split at h
      · split at h
        · next s' hr =>
          refine hdel s' topic data ?_ c info h
          unfold retain at hr
          split at hr
          · cases hr; exact hs
          · split at hr
            · cases hr; exact hs
            · cases hr
        · exact hs c info h
      · exact hdel s topic data hs c info h
    | cleanup now => exact hs c info h
    | flush now ok => simp only [step] at h; split at h <;> exact hs c info h

/-- A node at the end of the edges of a pattern: its subscribers are those who hold the pattern, its value is the retained one. -/
theorem at_pattern {dflt : Nat} {db : List Row} (hdb : (db.map (·.1)).Nodup) {t0 u0 : Nat} {h : List Op} (hv : Valid t0 h)
    (hp : ∀ o ∈ h, o.proper = true) (hd : ∀ c, Op.drop c ∉ h) {now : Nat} (hnow : lastTime t0 h ≤ now)
    (hkept : ∀ topic k, kept dflt (baseOf db t0 u0) topic h = some k → noWild topic = true)
    {p : Str} (hpp : hashLast (split p) = true) {m : Node} (hm : nav (edges (split p)) (run dflt (boot db t0 u0) h).1.tree = some m) :
    m.subs.Nodup ∧ (∀ c, c ∈ m.subs ↔ subscribed c p h = true) ∧
    (match m.retained with | some r => if r.expired now then none else some r.data | none => none)
      = (match kept dflt (baseOf db t0 u0) p h with | some k => if k.live now then some k.data else none | none => none) := by
  have hs := SubInv.of_run (dflt := dflt) (db := db) (t0 := t0) (u0 := u0) h hv.fresh
  have hr := (RetInv.of_run (dflt := dflt) (u0 := u0) hdb h hv).later hnow
  have hg := good_run (dflt := dflt) (good_boot db t0 u0) h
  have ha := alive_run (dflt := dflt) (s := boot db t0 u0) (fun c info h => by cases h) h hd
  generalize (run dflt (boot db t0 u0) h).1 = s at *
  have hp' : Proper h.reverse := fun o ho => hp o (List.mem_reverse.1 ho)
  obtain ⟨_, h2, h3⟩ := hg _ m hm
  refine ⟨h2, ?_, ?_⟩
  · intro c
    have hsub : c ∈ m.subs ↔ c ∈ subsAt (edges (split p)) s.tree := by simp only [subsAt, hm]
    rw [hsub]
    constructor
    · intro hc
      obtain ⟨info, hi, _⟩ := hs.tree1 c _ hc
      have hcon : connectedRev c h.reverse = true := by rw [← (hs.reg c info hi).2]; exact ha c info hi
      have := (hs.tree2 c _ hcon).mp hc
      obtain ⟨q, hq1, hq2, hq3⟩ := (holds_iff hp').mp this
      have := split_inj (edges_inj hq1 hpp hq2)
      subst this
      exact hq3
    · intro hc
      have hcon : connectedRev c h.reverse = true := subscribed_connected hc
      exact (hs.tree2 c _ hcon).mpr ((holds_iff hp').mpr ⟨p, hpp, rfl, hc⟩)
  · by_cases hw : noWild p = true
    · have hk := nav_kids (split p) s.tree
      rw [← edges_plain (noWild_iff.mp hw), hm] at hk
      simp only [Option.bind_some] at hk
      cases hret : m.retained with
      | none =>
        rw [hret] at hk
        cases hkk : kept dflt (baseOf db t0 u0) p h with
        | none => rfl
        | some k =>
          rcases hr.complete p k hkk with ⟨r, h4, _⟩ | ⟨_, h5⟩
          · rw [h4] at hk; cases hk
          · simp only [h5]; rfl
      | some r =>
        rw [hret] at hk
        obtain ⟨topic, h4, h5⟩ := hr.sound _ r hk.symm
        have := split_inj h4
        subst this
        have h5 : kept dflt (baseOf db t0 u0) p h = some r.kept := h5
        rw [h5]
        simp only [kept_live]
        cases r.expired now <;> rfl
    · have hnone : kept dflt (baseOf db t0 u0) p h = none := by
        cases hkk : kept dflt (baseOf db t0 u0) p h with
        | none => rfl
        | some k => exact absurd (hkept p k hkk) hw
      rw [hnone]
      cases hret : m.retained with
      | none => rfl
      | some r =>
        exfalso
        obtain ⟨ps, hps⟩ := all_kids (h3 (by rw [hret]; rfl))
        rw [hps] at hm
        have hk := nav_kids ps s.tree
        rw [hm] at hk
        simp only [Option.bind_some, hret] at hk
        obtain ⟨topic, h4, h5⟩ := hr.sound _ r hk.symm
        have h6 := hkept topic _ h5
        have : p = topic := by
          refine split_inj (edges_inj hpp (plain_hashLast (noWild_iff.mp h6)) ?_)
          rw [hps, h4, edges_plain (noWild_iff.mp h6)]
        subst this
        exact hw h6

/-- Every node that is shown is that of a pattern. -/
theorem shown_pattern {dflt : Nat} {db : List Row} (hdb : (db.map (·.1)).Nodup) {t0 u0 : Nat} {h : List Op} (hv : Valid t0 h)
    (hp : ∀ o ∈ h, o.proper = true) (hd : ∀ c, Op.drop c ∉ h)
    (hkept : ∀ topic k, kept dflt (baseOf db t0 u0) topic h = some k → noWild topic = true ∧ named topic = true)
    (hsubs : ∀ c p, subscribed c p h = true → named p = true)
    {es : List Edge} {m : Node} (hm : nav es (run dflt (boot db t0 u0) h).1.tree = some m) (hsh : m.subs ≠ [] ∨ m.retained.isSome) :
    ∃ p, hashLast (split p) = true ∧ named p = true ∧ es = edges (split p) := by
  have hs := SubInv.of_run (dflt := dflt) (db := db) (t0 := t0) (u0 := u0) h hv.fresh
  have hr := RetInv.of_run (dflt := dflt) (u0 := u0) hdb h hv
  have hg := good_run (dflt := dflt) (good_boot db t0 u0) h
  have ha := alive_run (dflt := dflt) (s := boot db t0 u0) (fun c info h => by cases h) h hd
  generalize (run dflt (boot db t0 u0) h).1 = s at *
  have hp' : Proper h.reverse := fun o ho => hp o (List.mem_reverse.1 ho)
  rcases hsh with hsh | hsh
  · obtain ⟨c, hc⟩ := List.exists_mem_of_ne_nil _ hsh
    have hc : c ∈ subsAt es s.tree := by simp only [subsAt, hm]; exact hc
    obtain ⟨info, hi, _⟩ := hs.tree1 c _ hc
    have hcon : connectedRev c h.reverse = true := by rw [← (hs.reg c info hi).2]; exact ha c info hi
    obtain ⟨q, hq1, hq2, hq3⟩ := (holds_iff hp').mp ((hs.tree2 c _ hcon).mp hc)
    exact ⟨q, hq1, hsubs c q hq3, hq2.symm⟩
  · obtain ⟨r, hret⟩ := Option.isSome_iff_exists.mp hsh
    obtain ⟨ps, rfl⟩ := all_kids ((hg _ m hm).2.2 hsh)
    have hk := nav_kids ps s.tree
    rw [hm] at hk
    simp only [Option.bind_some, hret] at hk
    obtain ⟨topic, h4, h5⟩ := hr.sound _ r hk.symm
    obtain ⟨h6, h7⟩ := hkept topic _ h5
    refine ⟨topic, plain_hashLast (noWild_iff.mp h6), h7, ?_⟩
    rw [edges_plain (noWild_iff.mp h6), h4]

/-- C76, in part (for names that do not begin with a separator, and retained topics without wildcard levels): every line of the
dashboard names a pattern or topic once, with the number of clients that hold this very subscription, and with the value a
subscriber would get now. -/
theorem C76_right_partial (dflt : Nat) (db : List Row) (hdb : (db.map (·.1)).Nodup) (t0 u0 : Nat) (h : List Op) (hv : Valid t0 h)
    (hp : ∀ o ∈ h, o.proper = true) (hd : ∀ c, Op.drop c ∉ h) (now : Nat) (hnow : lastTime t0 h ≤ now)
    (hkept : ∀ topic k, kept dflt (baseOf db t0 u0) topic h = some k → noWild topic = true ∧ named topic = true)
    (hsubs : ∀ c p, subscribed c p h = true → named p = true) (limit offset : Option Nat) (search : Option Str)
    (x : TopicInfo) (hx : x ∈ (shown dflt (boot db t0 u0) h now limit offset search).topics) :
    (∃ cs : List Cid, cs.Nodup ∧ (∀ c, c ∈ cs ↔ subscribed c x.path h = true) ∧ x.subscribers = cs.length) ∧
    x.retained = (match kept dflt (baseOf db t0 u0) x.path h with | some k => if k.live now then some k.data else none | none => none) := by
  have hg := good_run (dflt := dflt) (good_boot db t0 u0) h
  have hx' : x ∈ collectTopics now search [] (run dflt (boot db t0 u0) h).1.tree := by
    rw [← mem_topicList]
    simp only [shown, dashboard, scan] at hx
    split at hx
    · exact List.mem_of_mem_take (List.mem_of_mem_drop hx)
    · cases hx
  obtain ⟨es, m, hm, hh⟩ := (mem_collectTopics (fun es m hm => (hg es m hm).1)).mp hx'
  obtain ⟨h1, h2, h3⟩ := (topicHere_le _ _ _ _ _).2 x hh
  obtain ⟨p, hpp, hnam, rfl⟩ := shown_pattern hdb hv hp hd hkept hsubs hm h3
  rw [edges_label hpp, named_label hnam] at h1 hh
  obtain ⟨h4, h5, h6⟩ := at_pattern hdb hv hp hd hnow (fun topic k hk => (hkept topic k hk).1) hpp hm
  have hx2 : x = ⟨p, m.subs.length, match m.retained with | some r => if r.expired now then none else some r.data | none => none⟩ := by
    unfold topicHere at hh
    split at hh
    · cases hh
    · split at hh
      · exact List.mem_singleton.mp hh
      · cases hh
  subst hx2
  exact ⟨⟨m.subs, h4, h5, rfl⟩, h6⟩

/-- C76: whatever somebody subscribes to, and whatever value is retained, has a line, if it is found by the search. -/
theorem C76_listed_partial (dflt : Nat) (db : List Row) (hdb : (db.map (·.1)).Nodup) (t0 u0 : Nat) (h : List Op) (hv : Valid t0 h)
    (hp : ∀ o ∈ h, o.proper = true) (hd : ∀ c, Op.drop c ∉ h) (now : Nat) (hnow : lastTime t0 h ≤ now)
    (hkept : ∀ topic k, kept dflt (baseOf db t0 u0) topic h = some k → noWild topic = true)
    (search : Option Str) (p : Str) (hn : named p = true) (hf : found search p = true)
    (hex : (∃ c, subscribed c p h = true) ∨ ∃ k, kept dflt (baseOf db t0 u0) p h = some k ∧ k.live now = true) :
    ∃ x ∈ topicList now search (run dflt (boot db t0 u0) h).1.tree, x.path = p := by
  have hs := SubInv.of_run (dflt := dflt) (db := db) (t0 := t0) (u0 := u0) h hv.fresh
  have hr := (RetInv.of_run (dflt := dflt) (u0 := u0) hdb h hv).later hnow
  have hg := good_run (dflt := dflt) (good_boot db t0 u0) h
  have hp' : Proper h.reverse := fun o ho => hp o (List.mem_reverse.1 ho)
  have hat := @at_pattern dflt db hdb t0 u0 h hv hp hd now hnow hkept p
  generalize (run dflt (boot db t0 u0) h).1 = s at *
  have hpath : ∀ m : Node, hashLast (split p) = true → nav (edges (split p)) s.tree = some m → (m.subs ≠ [] ∨ m.retained.isSome) →
      ∃ x ∈ topicList now search s.tree, x.path = p := by
    intro m hpp hm hsh
    refine ⟨⟨p, m.subs.length, match m.retained with | some r => if r.expired now then none else some r.data | none => none⟩, ?_, rfl⟩
    rw [mem_topicList, mem_collectTopics (fun es m hm => (hg es m hm).1)]
    refine ⟨edges (split p), m, hm, ?_⟩
    rw [edges_label hpp, named_label hn]
    unfold topicHere
    rw [if_neg (by cases p <;> simp_all [named]), if_pos]
    · exact List.mem_singleton.mpr rfl
    · simp only [hf, Bool.true_and, Bool.or_eq_true, Bool.not_eq_true', List.isEmpty_eq_false_iff]
      exact hsh
  rcases hex with ⟨c, hc⟩ | ⟨k, hk, hl⟩
  · have hpp := subscribed_proper hp' hc
    have hcon : connectedRev c h.reverse = true := subscribed_connected hc
    have hin := (hs.tree2 c _ hcon).mpr ((holds_iff hp').mpr ⟨p, hpp, rfl, hc⟩)
    unfold subsAt at hin
    split at hin
    · next m hm => exact hpath m hpp hm (.inl (List.ne_nil_of_mem hin))
    · cases hin
  · have hw := noWild_iff.mp (hkept p k hk)
    have hpp := plain_hashLast hw
    rcases hr.complete p k hk with ⟨r, h4, _⟩ | ⟨_, h5⟩
    · have hkn := nav_kids (split p) s.tree
      rw [← edges_plain hw, h4] at hkn
      cases hm : nav (edges (split p)) s.tree with
      | none => rw [hm] at hkn; cases hkn
      | some m =>
        rw [hm] at hkn
        simp only [Option.bind_some] at hkn
        exact hpath m hpp hm (.inr (by rw [hkn]; rfl))
    · rw [h5] at hl; cases hl

/-- C76: no pattern or topic has two lines. -/
theorem C76_once_partial (dflt : Nat) (db : List Row) (hdb : (db.map (·.1)).Nodup) (t0 u0 : Nat) (h : List Op) (hv : Valid t0 h)
    (hp : ∀ o ∈ h, o.proper = true) (hd : ∀ c, Op.drop c ∉ h) (now : Nat)
    (hkept : ∀ topic k, kept dflt (baseOf db t0 u0) topic h = some k → noWild topic = true ∧ named topic = true)
    (hsubs : ∀ c p, subscribed c p h = true → named p = true) (search : Option Str) :
    ((topicList now search (run dflt (boot db t0 u0) h).1.tree).map (·.path)).Nodup := by
  have hg := good_run (dflt := dflt) (good_boot db t0 u0) h
  have hmw : ∀ es m, nav es (run dflt (boot db t0 u0) h).1.tree = some m → MWF m.children := fun es m hm => (hg es m hm).1
  have hperm : (topicList now search (run dflt (boot db t0 u0) h).1.tree).Perm (collectTopics now search [] (run dflt (boot db t0 u0) h).1.tree) :=
    sortTopics_perm _
  rw [(hperm.map _).nodup_iff, collectTopics_eq, List.map_flatMap]
  refine nodup_flatMap ?_ ?_
  · intro e _
    have := (topicHere_le now search (pathOf [] (e.1.map Edge.label)) e.2.1 e.2.2).1
    revert this
    generalize topicHere now search (pathOf [] (e.1.map Edge.label)) e.2.1 e.2.2 = l
    intro hl
    match l, hl with
    | [], _ => simp
    | [x], _ => simp
  · have hn := nodes_nodup hmw
    rw [List.nodup_iff_pairwise_ne, List.pairwise_map] at hn
    refine hn.imp_of_mem ?_
    intro a b ha hb hab path h1 h2
    obtain ⟨x, hx, rfl⟩ := List.mem_map.mp h1
    obtain ⟨y, hy, hxy⟩ := List.mem_map.mp h2
    obtain ⟨ma, hma, ea⟩ := mem_nodes hmw ha
    obtain ⟨mb, hmb, eb⟩ := mem_nodes hmw hb
    obtain ⟨hx1, _, hx2⟩ := (topicHere_le _ _ _ _ _).2 x hx
    obtain ⟨hy1, _, hy2⟩ := (topicHere_le _ _ _ _ _).2 y hy
    rw [ea] at hx2
    rw [eb] at hy2
    obtain ⟨p, hp1, hp2, hp3⟩ := shown_pattern hdb hv hp hd hkept hsubs hma hx2
    obtain ⟨q, hq1, hq2, hq3⟩ := shown_pattern hdb hv hp hd hkept hsubs hmb hy2
    rw [hp3, edges_label hp1, named_label hp2] at hx1
    rw [hq3, edges_label hq1, named_label hq2] at hy1
    apply hab
    rw [hp3, hq3, ← hx1, ← hy1, hxy]

/-! ### Pages, order and search hold without restriction -/

theorem shown_topics (dflt : Nat) (s0 : State) (h : List Op) (now : Nat) (limit offset : Option Nat) (search : Option Str) :
    (shown dflt s0 h now limit offset search).topics
      = ((topicList now search (run dflt s0 h).1.tree).drop (offset.getD 0)).take (min (limit.getD 50) 500) := by
  simp only [shown, dashboard, scan]
  generalize topicList now search (run dflt s0 h).1.tree = l
  split
  · next hlt =>
    rw [List.drop_take, List.take_eq_take_iff, List.length_drop]
    omega
  · next hge =>
    rw [List.drop_eq_nil_of_le (by omega)]
    simp

/-- C76: the pages of any size that the server allows, one after the other, are the whole list without gap or overlap, in order;
their number of lines is the total it reports.  With a search text, the lines are those whose name contains it. -/
theorem C76_pages (dflt : Nat) (s0 : State) (h : List Op) (now : Nat) (search : Option Str) (size : Nat) (h1 : 1 ≤ size) (h2 : size ≤ 500) :
    ∃ all : List TopicInfo, all.Perm ((collectTopics now none [] (run dflt s0 h).1.tree).filter (fun x => found search x.path)) ∧
      all.Pairwise (fun a b => strLe a.path b.path = true) ∧
      (∀ limit offset, (shown dflt s0 h now limit offset search).totalTopics = all.length) ∧
      ∀ n, all.length ≤ n * size → pages dflt s0 h now search size n = all := by
  refine ⟨topicList now search (run dflt s0 h).1.tree, ?_, ?_, fun _ _ => rfl, ?_⟩
  · refine (sortTopics_perm _).trans (List.Perm.of_eq ?_)
    rw [collectTopics_eq, collectTopics_eq, List.filter_flatMap]
    rw [List.flatMap_def, List.flatMap_def]
    congr 1
    apply List.map_congr_left
    intro e _
    unfold topicHere
    split
    · rfl
    · have hnone : found none (pathOf [] (e.1.map Edge.label)) = true := rfl
      cases hf : found search (pathOf [] (e.1.map Edge.label)) with
      | true =>
        simp only [hnone, Bool.true_and]
        split
        · rw [List.filter_cons, List.filter_nil]; simp only [hf, if_true]
        · rfl
      | false =>
        simp only [Bool.false_and, hnone, Bool.true_and]
        rw [if_neg (by simp)]
        split
        · rw [List.filter_cons, List.filter_nil]; simp only [hf]; rfl
        · rfl
  · exact sortTopics_sorted _
  · have hpg : ∀ n, pages dflt s0 h now search size n = (topicList now search (run dflt s0 h).1.tree).take (n * size) := by
      intro n
      induction n with
      | zero => simp [pages]
      | succ n ih =>
        unfold pages
        rw [ih, shown_topics]
        simp only [Option.getD_some]
        rw [Nat.min_eq_left h2, Nat.succ_mul, List.take_add]
    intro n hn
    rw [hpg, List.take_of_length_le hn]

/-- What finding means. -/
theorem found_spec (needle s : Str) : hasPart needle s = true ↔ ∃ a b, s = a ++ needle ++ b := by
  induction s with
  | nil =>
    simp only [hasPart, List.isEmpty_iff]
    constructor
    · rintro rfl; exact ⟨[], [], rfl⟩
    · rintro ⟨a, b, h⟩
      have := congrArg List.length h
      simp only [List.length_nil, List.length_append] at this
      exact List.eq_nil_of_length_eq_zero (by omega)
  | cons c t ih =>
    simp only [hasPart, Bool.or_eq_true, ih, List.isPrefixOf_iff_prefix]
    constructor
    · rintro (⟨b, h⟩ | ⟨a, b, rfl⟩)
      · exact ⟨[], b, by simpa using h.symm⟩
      · exact ⟨c :: a, b, rfl⟩
    · rintro ⟨a, b, h⟩
      cases a with
      | nil => exact .inl ⟨b, by simpa using h.symm⟩
      | cons x a =>
        simp only [List.cons_append, List.cons.injEq] at h
        exact .inr ⟨a, b, h.2⟩

theorem mem_topicHere_some {now : Nat} {text path : Str} {subs : List Cid} {r : Option Retained} {x : TopicInfo} :
    x ∈ topicHere now (some text) path subs r ↔ x ∈ topicHere now none path subs r ∧ ∃ a b, path = a ++ text ++ b := by
  have h1 : found none path = true := rfl
  have h2 : found (some text) path = hasPart text path := rfl
  unfold topicHere
  rw [h1, h2, ← found_spec]
  split
  · simp
  · cases hasPart text path <;> simp

/-- C76: a search shows exactly those lines of the whole listing whose name contains the text. -/
theorem C76_search (dflt : Nat) (db : List Row) (t0 u0 : Nat) (h : List Op) (now : Nat) (text : Str) (x : TopicInfo) :
    x ∈ topicList now (some text) (run dflt (boot db t0 u0) h).1.tree ↔
      x ∈ topicList now none (run dflt (boot db t0 u0) h).1.tree ∧ ∃ a b, x.path = a ++ text ++ b := by
  have hg := good_run (dflt := dflt) (good_boot db t0 u0) h
  rw [mem_topicList, mem_topicList, mem_collectTopics (fun es m hm => (hg es m hm).1), mem_collectTopics (fun es m hm => (hg es m hm).1)]
  constructor
  · rintro ⟨es, m, hm, hx⟩
    obtain ⟨h1, h2⟩ := mem_topicHere_some.mp hx
    exact ⟨⟨es, m, hm, h1⟩, by rw [((topicHere_le _ _ _ _ _).2 x h1).1]; exact h2⟩
  · rintro ⟨⟨es, m, hm, hx⟩, h2⟩
    exact ⟨es, m, hm, mem_topicHere_some.mpr ⟨hx, by rw [← ((topicHere_le _ _ _ _ _).2 x hx).1]; exact h2⟩⟩

/-! ### Clients and wildcard subscriptions -/

/-- C76: the number of active clients is the number of connected clients, and the lists of wildcard subscriptions hold exactly the
subscriptions of connected clients that contain `#` (byte 35), and those that contain `+` (byte 43) but not `#`. -/
theorem C76_clients (dflt : Nat) (db : List Row) (t0 u0 : Nat) (h : List Op) (hn : (connects h).Nodup) (hd : ∀ c, Op.drop c ∉ h)
    (now : Nat) (limit offset : Option Nat) (search : Option Str) :
    let d := shown dflt (boot db t0 u0) h now limit offset search
    (∃ cs : List Cid, cs.Nodup ∧ (∀ c, c ∈ cs ↔ connected c h = true) ∧ d.activeClients = cs.length) ∧
    (∀ c p, (p, c) ∈ d.multiLevel ↔ subscribed c p h = true ∧ (35 : UInt8) ∈ p ∧ found search p = true) ∧
    ∀ c p, (p, c) ∈ d.singleLevel ↔ subscribed c p h = true ∧ (35 : UInt8) ∉ p ∧ (43 : UInt8) ∈ p ∧ found search p = true := by
  have hi := ClientsInv.of_run (dflt := dflt) (db := db) (t0 := t0) (u0 := u0) h hn hd
  intro d
  have hb : ∀ (x : UInt8) (p : Str), hasByte x p = true ↔ x ∈ p := by
    intro x p
    simp [hasByte, List.any_eq_true]
  have hmem : ∀ c p, (p, c) ∈ ((run dflt (boot db t0 u0) h).1.clients.map (fun e => (e.1, e.2.subscriptions))).flatMap (fun e => e.2.map (fun p => (p, e.1)))
      ↔ subscribed c p h = true := by
    intro c p
    rw [List.mem_flatMap]
    constructor
    · rintro ⟨e, he, hp⟩
      obtain ⟨⟨c', info⟩, hc, rfl⟩ := List.mem_map.mp he
      obtain ⟨q, hq, heq⟩ := List.mem_map.mp hp
      cases heq
      exact ((hi.subs c' info (hi.wf.mem_iff.mp hc)).2 p).mp hq
    · intro hs
      have hcon := (hi.conn c).mpr (subscribed_connected hs)
      obtain ⟨info, hg⟩ := Option.isSome_iff_exists.mp hcon
      exact ⟨(c, info.subscriptions), List.mem_map.mpr ⟨(c, info), hi.wf.mem_iff.mpr hg, rfl⟩,
        List.mem_map.mpr ⟨p, ((hi.subs c info hg).2 p).mpr hs, rfl⟩⟩
  refine ⟨⟨mkeys (run dflt (boot db t0 u0) h).1.clients, hi.wf, ?_, ?_⟩, ?_, ?_⟩
  · intro c
    rw [← mget_isSome]; exact hi.conn c
  · simp only [d, shown, dashboard, scan, mkeys, List.length_map]
  · intro c p
    simp only [d, shown, dashboard, scan, List.mem_filter, hmem, Bool.and_eq_true, hb]
  · intro c p
    simp only [d, shown, dashboard, scan, List.mem_filter, hmem, Bool.and_eq_true, Bool.not_eq_true', hb, ← Bool.not_eq_true]
    constructor
    · rintro ⟨a, ⟨b, c⟩, d⟩; exact ⟨a, b, c, d⟩
    · rintro ⟨a, b, c, d⟩; exact ⟨a, ⟨b, c⟩, d⟩

/-- Two clients hold `a/+`, one also `b`; `b` has a retained value; client 3 has gone. -/
def exD : List Op :=
  [.connect 1, .connect 2, .connect 3, .subscribe 1 [97, 47, 43] [] 0, .subscribe 2 [97, 47, 43] [] 0, .subscribe 3 [97, 47, 43] [] 0,
   .subscribe 1 [98] [] 0, .publish [98] [7] true none 1 1, .disconnect 3]

example : Valid 0 exD ∧ (∀ o ∈ exD, o.proper = true) ∧ lastTime 0 exD ≤ 5 :=
  ⟨⟨by decide, by decide⟩, by decide, by decide⟩

example : ∀ c p, subscribed c p exD = true → named p = true := by
  intro c p h
  simp only [subscribed, exD, List.reverse_cons, List.reverse_nil, List.nil_append, List.cons_append, subscribedRev, connectedRev,
    Bool.or_eq_true, Bool.and_eq_true, decide_eq_true_eq, Bool.or_false] at h
  rcases h.2 with ⟨⟨_, h⟩, _⟩ | ⟨⟨_, h⟩, _⟩ | ⟨⟨_, h⟩, _⟩ | ⟨⟨_, h⟩, _⟩ <;> subst h <;> rfl

example : ∀ topic k, kept 60 (baseOf [] 0 0) topic exD = some k → noWild topic = true ∧ named topic = true := by
  intro topic k h
  simp only [kept, exD, List.reverse_cons, List.reverse_nil, List.nil_append, List.cons_append, keptRev] at h
  split at h
  · next ht => subst ht; exact ⟨by decide, by decide⟩
  · cases h

example : (shown 60 (boot [] 0 0) exD 5 none none none).topics = [⟨[97, 47, 43], 2, none⟩, ⟨[98], 1, some [7]⟩] := by decide
example : pages 60 (boot [] 0 0) exD 5 none 1 2 = [⟨[97, 47, 43], 2, none⟩, ⟨[98], 1, some [7]⟩] := by decide
example : (shown 60 (boot [] 0 0) exD 5 none none none).activeClients = 2 ∧
    (shown 60 (boot [] 0 0) exD 5 none none none).singleLevel = [([97, 47, 43], 1), ([97, 47, 43], 2)] := by decide
example : (shown 60 (boot [] 0 0) exD 5 none none (some [43])).topics = [⟨[97, 47, 43], 2, none⟩] := by decide

/-- C76 does not hold without the restrictions: a subscription to `/a` is shown as one to `a`, to which nobody has subscribed, and
that to the empty name is not shown at all. -/
theorem C76_violated :
    let h : List Op := [.connect 1, .subscribe 1 [47, 97] [] 0, .subscribe 1 [] [] 0]
    (shown 60 (boot [] 0 0) h 5 none none none).topics = [⟨[97], 1, none⟩] ∧ (∀ c, subscribed c [97] h = false) ∧
      subscribed 1 [47, 97] h = true ∧ subscribed 1 [] h = true := by
  refine ⟨by decide, ?_, by decide, by decide⟩
  intro c
  simp [subscribed, subscribedRev]

/-- C76: a value retained under a name with a wildcard level is shown on a line of its own, besides that of the subscribers. -/
theorem C76_violated_twice :
    (shown 60 (boot [] 0 0) [.connect 1, .subscribe 1 [43] [] 0, .publish [43] [7] true none 1 1] 5 none none none).topics
      = [⟨[43], 0, some [7]⟩, ⟨[43], 1, none⟩] := by decide

end Verif.PubSub
