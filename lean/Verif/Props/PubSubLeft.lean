import Verif.Proofs.PubSubLeft
import Verif.Props.PubSubRace
import Verif.Props.PubSubScan

/-!
# Properties C74 and C75, and the end of every request (C73)

What overlapping publish/subscribe requests leave behind: the subscriptions of clients that have gone (C74), and the retained
value compared with the last message (C75).
-/

namespace Verif.PubSub.Race

/-- C73: every request ends, in every schedule in which it gets its turn again and again, whatever else is going on. -/
theorem C73_ends (σ : Nat → Ev) (hn : ∀ n, (starts ((List.range n).map σ)).Nodup) (k id : Nat) (r : Req) (hs : σ k = .start id r)
    (hfair : ∀ k, ∃ j, k ≤ j ∧ ∃ now, σ j = .next id now) :
    ∃ n, k < n ∧ ∀ m, n ≤ m → (run {} ((List.range m).map σ)).done id := by
  suffices h : ∃ n, k < n ∧ (run {} ((List.range n).map σ)).done id by
    obtain ⟨n, h1, h2⟩ := h
    exact ⟨n, h1, fun m hm => done_stays hn hs h1 h2 hm⟩
  cases hg : mget (run {} ((List.range (k + 1)).map σ)).tasks id with
  | none => exact ⟨k + 1, by omega, hg⟩
  | some t =>
    obtain ⟨i, hi, h | ⟨t', h1, h2, _⟩⟩ := moves hn hs hfair (Nat.lt_succ_self k) hg
    · exact ⟨i + 1, by omega, h⟩
    · obtain ⟨m, h3, h4⟩ := ends_routed hn hs hfair t'.work (n := i + 1) (by omega) h1 h2 (Nat.le_refl _)
      exact ⟨m, by omega, h4⟩

/-- A schedule: client 1 subscribes, then somebody publishes, and afterwards the publish gets every turn. -/
def exFair : Nat → Ev
  | 0 => .connect 1
  | 1 => .start 0 (.subscribe 1 [97])
  | 2 => .next 0 0
  | 3 => .start 1 (.publish [97] [7] none)
  | _ => .next 1 0

example : exFair 3 = .start 1 (.publish [97] [7] none) ∧ (∀ k, ∃ j, k ≤ j ∧ ∃ now, exFair j = .next 1 now) ∧
    ∀ n, (starts ((List.range n).map exFair)).Nodup := by
  refine ⟨rfl, fun k => ⟨k + 4, by omega, 0, rfl⟩, ?_⟩
  have h4 : ∀ n, starts ((List.range (n + 4)).map exFair) = [0, 1] := by
    intro n
    induction n with
    | zero => rfl
    | succ n ih =>
      have : n + 1 + 4 = (n + 4) + 1 := by omega
      rw [this, pre_succ, starts_append, ih]
      rfl
  intro n
  by_cases hn : 4 ≤ n
  · obtain ⟨m, rfl⟩ : ∃ m, n = m + 4 := ⟨n - 4, by omega⟩
    rw [h4]; decide
  · have : n = 0 ∨ n = 1 ∨ n = 2 ∨ n = 3 := by omega
    rcases this with rfl | rfl | rfl | rfl <;> decide

/-! ## C74 -/

/-- C74, in part: if clients behave calmly (`Calm`), then whenever no request is in progress, every line of the dashboard counts
exactly the connected clients whose last request about this name was to subscribe.  In particular a client that has gone is
counted nowhere.  (Names that begin with a separator and retained topics with wildcard levels are left out as in C76.) -/
theorem C74_counts_partial (es : List Ev) (hn : (starts es).Nodup) (hp : Proper es) (hc : ∀ c, Calm c es) (hr : (run {} es).rest)
    (hnam : ∀ id c p, Ev.start id (.subscribe c p) ∈ es → named p = true)
    (hret : ∀ id t d r, Ev.start id (.publish t d (some r)) ∈ es → noWild t = true ∧ named t = true)
    (now : Nat) (search : Option Str) (x : TopicInfo) (hx : x ∈ topicList now search (run {} es).tree) :
    ∃ cs : List Cid, cs.Nodup ∧ (∀ c, c ∈ cs ↔ (run {} es).connected c = true ∧ wants c x.path es = true) ∧ x.subscribers = cs.length := by
  have hg := good_tree es
  rw [mem_topicList] at hx
  obtain ⟨ed, m, hm, hh⟩ := (mem_collectTopics (fun es m hm => (hg es m hm).1)).mp hx
  obtain ⟨h1, h2, h3⟩ := (topicHere_le _ _ _ _ _).2 x hh
  have hpat : ∃ p, hashLast (split p) = true ∧ named p = true ∧ ed = edges (split p) := by
    rcases h3 with h3 | h3
    · obtain ⟨c, hcm⟩ := List.exists_mem_of_ne_nil _ h3
      have hcm : c ∈ subsAt ed (run {} es).tree := by simp only [subsAt, hm]; exact hcm
      obtain ⟨i, p, h4, h5⟩ := tree_origin hcm
      exact ⟨p, hp.1 i c p h4, hnam i c p h4, h5.symm⟩
    · obtain ⟨r, hre⟩ := Option.isSome_iff_exists.mp h3
      obtain ⟨ps, rfl⟩ := all_kids ((hg _ m hm).2.2 h3)
      have hk := nav_kids ps (run {} es).tree
      rw [hm] at hk
      simp only [Option.bind_some, hre] at hk
      obtain ⟨id, t, d, h4, rfl⟩ := ret_origin hk.symm
      obtain ⟨h6, h7⟩ := hret id t d _ h4
      exact ⟨t, plain_hashLast (noWild_iff.mp h6), h7, (edges_plain (noWild_iff.mp h6)).symm⟩
  obtain ⟨p, hpp, hnp, rfl⟩ := hpat
  rw [edges_label hpp, named_label hnp] at h1
  refine ⟨m.subs, (hg _ m hm).2.1, ?_, ?_⟩
  · intro c
    rw [h1, ← at_rest hn hp (hc c) hr hpp]
    simp only [subsAt, hm]
  · unfold topicHere at hh
    split at hh
    · cases hh
    · split at hh
      · rw [List.mem_singleton.mp hh]
      · cases hh

/-- C74, in part: and every such client has a line. -/
theorem C74_listed_partial (es : List Ev) (hn : (starts es).Nodup) (hp : Proper es) (c : Cid) (hc : Calm c es) (hr : (run {} es).rest)
    (p : Str) (hnam : named p = true) (hconn : (run {} es).connected c = true) (hw : wants c p es = true) (now : Nat) :
    ∃ x ∈ topicList now none (run {} es).tree, x.path = p ∧ 0 < x.subscribers := by
  have hg := good_tree es
  obtain ⟨subs, h3⟩ := Option.isSome_iff_exists.mp hconn
  obtain ⟨k, hk⟩ := table_origin h3 ((table_wants hc.once h3 p).mpr hw)
  have hpp := hp.1 k c p hk
  have hin := (at_rest hn hp hc hr hpp).mpr ⟨hconn, hw⟩
  unfold subsAt at hin
  split at hin
  · next m hm =>
    refine ⟨⟨p, m.subs.length, match m.retained with | some r => if r.expired now then none else some r.data | none => none⟩, ?_, rfl,
      List.length_pos_of_mem hin⟩
    rw [mem_topicList, mem_collectTopics (fun es m hm => (hg es m hm).1)]
    refine ⟨edges (split p), m, hm, ?_⟩
    rw [edges_label hpp, named_label hnam]
    unfold topicHere
    rw [if_neg (by cases p <;> simp_all [named]), if_pos]
    · exact List.mem_singleton.mpr rfl
    · have hnone : found none p = true := rfl
      simp only [hnone, Bool.true_and, Bool.or_eq_true, Bool.not_eq_true', List.isEmpty_eq_false_iff]
      exact .inl (List.ne_nil_of_mem hin)
  · cases hin

/-- Clients 1 and 2 subscribe to `a` at the same time, client 1 to `b` while it gives up `a`, client 2 goes. -/
def exC : List Ev :=
  [.connect 1, .connect 2, .start 0 (.subscribe 1 [97]), .start 1 (.subscribe 2 [97]), .next 1 0, .next 0 0,
   .start 2 (.unsubscribe 1 [97]), .start 3 (.subscribe 1 [98]), .next 3 0, .start 4 (.disconnect 2), .next 2 0, .next 4 0]

/-- A check for `Calm`. -/
def calmAt (c : Cid) (x : List Ev) (e : Ev) : Bool :=
  (match e with
    | .connect d => decide (d ≠ c) || !x.contains (.connect c)
    | .start _ (.subscribe d p) => decide (d ≠ c) || (run {} x).tasks.all (fun t => decide (t.2 ≠ .unsubscribe c p))
    | .start _ (.unsubscribe d p) => decide (d ≠ c) || (run {} x).tasks.all (fun t => decide (t.2 ≠ .subscribe c p))
    | _ => true) &&
  (!(run {} x).connected c || (run {} (x ++ [e])).connected c ||
    (run {} x).tasks.all (fun t => match t.2 with | .subscribe d _ => decide (d ≠ c) | _ => true))

theorem mget_mem {m : List (Nat × Task)} {i : Nat} {t : Task} (h : mget m i = some t) : (i, t) ∈ m := by
  induction m with
  | nil => cases h
  | cons e m ih =>
    obtain ⟨j, u⟩ := e
    by_cases hj : j = i
    · subst hj; rw [mget, if_pos rfl] at h; cases h; exact List.mem_cons_self ..
    · rw [mget, if_neg hj] at h; exact List.mem_cons_of_mem _ (ih h)

theorem calm_of {c : Cid} {es : List Ev} (h : ∀ x e y, es = x ++ e :: y → calmAt c x e = true) : Calm c es := by
  refine ⟨?_, ?_, ?_, ?_⟩
  · intro x y hx hc
    have := h x _ y hx
    simp [calmAt, hc] at this
  · intro x y i p hx j ht
    have := h x _ y hx
    simp only [calmAt, ne_eq, not_true, decide_false, Bool.false_or, Bool.and_eq_true, List.all_eq_true, decide_eq_true_eq] at this
    exact this.1 _ (mget_mem ht) rfl
  · intro x y i p hx j ht
    have := h x _ y hx
    simp only [calmAt, ne_eq, not_true, decide_false, Bool.false_or, Bool.and_eq_true, List.all_eq_true, decide_eq_true_eq] at this
    exact this.1 _ (mget_mem ht) rfl
  · intro x y e p hx h1 h2 j ht
    have := h x _ y hx
    simp only [calmAt, h1, h2, Bool.and_eq_true, Bool.not_true, Bool.false_or, List.all_eq_true] at this
    have := this.2 _ (mget_mem ht)
    simp at this

def calmAll (c : Cid) (es : List Ev) : Bool :=
  (List.range es.length).all (fun n => match es[n]? with | some e => calmAt c (es.take n) e | none => true)

theorem calm_check {c : Cid} {es : List Ev} (h : calmAll c es = true) : Calm c es := by
  refine calm_of ?_
  rintro x e y rfl
  have := List.all_eq_true.mp h x.length (by simp)
  simpa using this

example : ∀ c, Calm c exC := by
  intro c
  by_cases h1 : c = 1
  · subst h1; exact calm_check (by decide)
  by_cases h2 : c = 2
  · subst h2; exact calm_check (by decide)
  have hcon : Ev.connect c ∉ exC := by simp [exC, h1, h2]
  refine ⟨fun x y hx => absurd (by rw [hx]; simp) hcon, fun x y i p hx => ?_, fun x y i p hx => ?_, fun x y e p hx hc => ?_⟩
  · have : Ev.start i (.subscribe c p) ∈ exC := by rw [hx]; simp
    simp [exC, h1, h2] at this
  · have : Ev.start i (.unsubscribe c p) ∈ exC := by rw [hx]; simp
    simp [exC, h1] at this
  · refine absurd ?_ hcon
    rw [hx]
    refine List.mem_append_left _ (entry_connected ?_)
    intro hn
    simp only [State.connected, hn] at hc
    cases hc

example : (starts exC).Nodup ∧ (run {} exC).tasks = [] ∧ topicList 0 none (run {} exC).tree = [⟨[98], 1, none⟩] := by decide

/-- C74 fails: a disconnection that comes between the two sections of a subscription leaves the subscription in the tree.  No
client is left and no request is in progress, but the dashboard counts a subscriber – now and for ever, until a client with the
same name appears (names are not used twice). -/
theorem C74_violated : ∃ es : List Ev, (starts es).Nodup ∧ Proper es ∧ (run {} es).tasks = [] ∧ (run {} es).clients = [] ∧
    topicList 0 none (run {} es).tree = [⟨[97], 1, none⟩] ∧
    ∀ es' now, (starts (es ++ es')).Nodup → Ev.connect 1 ∉ es' → (∀ i p, Ev.start i (.unsubscribe 1 p) ∉ es') →
      ∃ x ∈ topicList now none (run {} (es ++ es')).tree, x.path = [97] ∧ 0 < x.subscribers := by
  refine ⟨[.connect 1, .start 0 (.subscribe 1 [97]), .start 1 (.disconnect 1), .next 1 0, .next 0 0], by decide, ?_, by decide, by decide, by decide, ?_⟩
  · refine ⟨?_, ?_⟩
    · intro i c p h
      simp only [List.mem_cons, reduceCtorEq, Ev.start.injEq, Req.subscribe.injEq, List.not_mem_nil, and_false, or_false, false_or] at h
      obtain ⟨_, _, rfl⟩ := h
      decide
    · intro i c p h
      simp at h
  · intro es' now hn hcon hun
    generalize hes : ([.connect 1, .start 0 (.subscribe 1 [97]), .start 1 (.disconnect 1), .next 1 0, .next 0 0] : List Ev) = es at hn
    have key : ∀ y, (∃ z, es' = y ++ z) → 1 ∈ subsAt (edges (split [97])) (run {} (es ++ y)).tree ∧ mget (run {} (es ++ y)).clients 1 = none ∧
        (∀ i ps rest, mget (run {} (es ++ y)).tasks i ≠ some (.forget 1 ps rest)) := by
      intro y
      induction y using Verif.Sdk.snoc_ind with
      | h0 =>
        intro _
        subst hes
        refine ⟨by decide, by decide, ?_⟩
        intro i ps rest h
        have : (run {} ([.connect 1, .start 0 (.subscribe 1 [97]), .start 1 (.disconnect 1), .next 1 0, .next 0 0] ++ [])).tasks = [] := by decide
        rw [this] at h; cases h
      | h1 y e ih =>
        rintro ⟨z, rfl⟩
        obtain ⟨j1, j2, j3⟩ := ih ⟨e :: z, by simp⟩
        rw [← List.append_assoc, run_snoc]
        refine ⟨?_, step_none j2 (fun he => hcon (by simp [he])), ?_⟩
        · rcases tree_del (e := e) j1 with h | ⟨id, nw, rfl, ⟨p, h, _⟩ | ⟨ps, rest, h⟩⟩
          · exact h
          · exfalso
            have := unsub_task h
            rcases List.mem_append.mp this with h' | h'
            · rw [← hes] at h'; simp at h'
            · exact hun id p (by simp [h'])
          · exact absurd h (j3 id ps rest)
        · intro i ps rest h
          rcases task_from h with h | ⟨r, _, hr⟩ | ⟨nw, t0, _, _, hr⟩
          · exact j3 i ps rest h
          · have hr2 := hr.2.2; rw [j2] at hr2; cases hr2
          · rcases t0 with _ | _ | _ | ⟨_, _ | _, _⟩ | _ | _ <;> first | exact hr.elim | (have hr2 := hr.2; rw [j2] at hr2; cases hr2)
    have hin := (key es' ⟨[], by simp⟩).1
    have hg := good_tree (es ++ es')
    unfold subsAt at hin
    split at hin
    · next m hm =>
      refine ⟨⟨[97], m.subs.length, match m.retained with | some r => if r.expired now then none else some r.data | none => none⟩, ?_, rfl,
        List.length_pos_of_mem hin⟩
      rw [mem_topicList, mem_collectTopics (fun es m hm => (hg es m hm).1)]
      refine ⟨edges (split [97]), m, hm, ?_⟩
      rw [edges_label (by decide), named_label (by decide)]
      unfold topicHere
      rw [if_neg (by simp), if_pos]
      · exact List.mem_singleton.mpr rfl
      · have hnone : found none [97] = true := rfl
        simp only [hnone, Bool.true_and, Bool.or_eq_true, Bool.not_eq_true', List.isEmpty_eq_false_iff]
        exact .inl (List.ne_nil_of_mem hin)
    · cases hin

/-- C74 fails: a client that unsubscribes before its subscription has been answered stays subscribed, although its last request
was to unsubscribe and both have been answered: it goes on getting messages. -/
theorem C74_violated_overlap : ∃ es : List Ev, (starts es).Nodup ∧ (run {} es).tasks = [] ∧ (run {} es).connected 1 = true ∧
    wants 1 [97] es = false ∧ topicList 0 none (run {} es).tree = [⟨[97], 1, none⟩] ∧
    outs (run {} es) [.start 9 (.publish [97] [7] none), .next 9 0, .next 9 0] = [⟨9, 1, ⟨[97], [7]⟩⟩] :=
  ⟨[.connect 1, .start 0 (.subscribe 1 [97]), .start 1 (.unsubscribe 1 [97]), .next 1 0, .next 0 0], by decide, by decide, by decide,
    by decide, by decide, by decide⟩

/-! ## C75 -/

theorem aboutTo_append (c : Cid) (t : Str) (a b : List Sent) : aboutTo c t (a ++ b) = aboutTo c t a ++ aboutTo c t b := by
  simp [aboutTo]

/-- Who publishes on a topic. -/
theorem publishes_from {s : State} {e : Ev} {i : Nat} {u : Task} {t : Str} (h : mget (step s e).1.tasks i = some u)
    (hu : u.publishes t = true) : (∃ u0, mget s.tasks i = some u0 ∧ u0.publishes t = true) ∨ ∃ d keep, e = .start i (.publish t d keep) := by
  rcases task_from h with h | ⟨r, rfl, hr⟩ | ⟨now, t0, rfl, ht0, hr⟩
  · exact .inl ⟨u, h, hu⟩
  · cases u with
    | route topic data =>
      obtain ⟨keep, rfl⟩ := hr
      simp only [Task.publishes, decide_eq_true_eq] at hu
      subst hu
      exact .inr ⟨data, keep, rfl⟩
    | send _ _ _ => exact hr.elim
    | subscribe _ _ => cases hu
    | unsubscribe _ _ => cases hu
    | forget _ _ _ => cases hu
    | disconnect _ => cases hu
  · refine .inl ⟨t0, ht0, ?_⟩
    cases u with
    | route topic data => rcases t0 with _ | _ | _ | ⟨_, _ | _, _⟩ | _ | _ <;> exact hr.elim
    | send msg todo zs =>
      rcases t0 with _ | _ | _ | ⟨_, _ | _, _⟩ | _ | _ <;> first | exact hr.elim | skip
      · obtain ⟨rfl, _⟩ := hr; exact hu
      · obtain ⟨rfl, _⟩ := hr; exact hu
    | subscribe _ _ => cases hu
    | unsubscribe _ _ => cases hu
    | forget _ _ _ => cases hu
    | disconnect _ => cases hu

/-- C75, in part: if no other publish on the topic is in progress when a retained publish begins, and none begins afterwards, then,
once it has been answered, the last message on this topic in the channel of a subscriber that does not subscribe anew meanwhile is
this one. -/
theorem C75_last_partial (a b e : List Ev) (c : Cid) (p t : Str) (d : Bytes) (keep : Option (Option Retained)) (sid pid : Nat)
    (hn : (starts (a ++ Ev.start sid (.subscribe c p) :: (b ++ Ev.start pid (.publish t d keep) :: e))).Nodup)
    (hp : Proper (a ++ Ev.start sid (.subscribe c p) :: (b ++ Ev.start pid (.publish t d keep) :: e)))
    (hconn : Ev.connect c ∈ a)
    (hrecv : Ev.gone c ∉ a ++ Ev.start sid (.subscribe c p) :: (b ++ Ev.start pid (.publish t d keep) :: e))
    (hstay : ∀ id, Ev.start id (.disconnect c) ∉ a ++ Ev.start sid (.subscribe c p) :: (b ++ Ev.start pid (.publish t d keep) :: e))
    (hfree : (run {} a).free (.unsubscribe c p))
    (hkeep : ∀ id, Ev.start id (.unsubscribe c p) ∉ b ++ e)
    (hsub : (run {} (a ++ Ev.start sid (.subscribe c p) :: b)).done sid)
    (hm : Matches (split p) (split t))
    (hpub : (run {} (a ++ Ev.start sid (.subscribe c p) :: (b ++ Ev.start pid (.publish t d keep) :: e))).done pid)
    (hidle : ∀ id u, mget (run {} (a ++ Ev.start sid (.subscribe c p) :: b)).tasks id = some u → u.publishes t = false)
    (hlast : ∀ id d' k', Ev.start id (.publish t d' k') ∉ e)
    (hnosub : ∀ q, (run {} (a ++ Ev.start sid (.subscribe c p) :: b)).free (.subscribe c q))
    (hnonew : ∀ id q, Ev.start id (.subscribe c q) ∉ e) :
    (aboutTo c t (outs {} (a ++ Ev.start sid (.subscribe c p) :: (b ++ Ev.start pid (.publish t d keep) :: e)))).getLast?
      = some ⟨pid, c, ⟨t, d⟩⟩ := by
  have hone := C73_reaches a b e c p t d keep sid pid hn hp hconn hrecv hstay hfree hkeep hsub hm hpub
  have hcut : a ++ Ev.start sid (.subscribe c p) :: (b ++ Ev.start pid (.publish t d keep) :: e)
      = (a ++ Ev.start sid (.subscribe c p) :: b) ++ ([Ev.start pid (.publish t d keep)] ++ e) := by simp
  rw [hcut] at hone hn ⊢
  generalize a ++ Ev.start sid (.subscribe c p) :: b = x at *
  have hnp : pid ∉ starts x := by
    rw [starts_append, List.nodup_append] at hn
    intro hx
    exact hn.2.2 pid hx pid (by simp [starts]) rfl
  -- afterwards only this publish sends on the topic to the client
  have inv : ∀ y, (∃ z, e = y ++ z) → (∀ id u, mget (run {} (x ++ Ev.start pid (.publish t d keep) :: y)).tasks id = some u → u.publishes t = true → id = pid) ∧
      ∀ q, (run {} (x ++ Ev.start pid (.publish t d keep) :: y)).free (.subscribe c q) := by
    intro y
    induction y using Verif.Sdk.snoc_ind with
    | h0 =>
      intro _
      rw [run_snoc]
      refine ⟨?_, ?_⟩
      · intro id u h hu
        rcases publishes_from h hu with ⟨u0, h0, hu0⟩ | ⟨_, _, he⟩
        · rw [hidle id u0 h0] at hu0; cases hu0
        · cases he; rfl
      · intro q id h
        rcases task_from h with h | ⟨r, he, hr⟩ | ⟨_, _, he, _⟩
        · exact hnosub q id h
        · have hr : r = .subscribe c q := hr
          subst hr; cases he
        · cases he
    | h1 y ev ih =>
      rintro ⟨z, rfl⟩
      obtain ⟨j1, j2⟩ := ih ⟨ev :: z, by simp⟩
      have hcut2 : x ++ Ev.start pid (.publish t d keep) :: (y ++ [ev]) = (x ++ Ev.start pid (.publish t d keep) :: y) ++ [ev] := by simp
      rw [hcut2, run_snoc]
      refine ⟨?_, ?_⟩
      · intro id u h hu
        rcases publishes_from h hu with ⟨u0, h0, hu0⟩ | ⟨d', k', rfl⟩
        · exact j1 id u0 h0 hu0
        · exact absurd (by simp) (hlast id d' k')
      · intro q id h
        rcases task_from h with h | ⟨r, rfl, hr⟩ | ⟨_, t0, _, _, hr⟩
        · exact j2 q id h
        · have hr : r = .subscribe c q := hr
          subst hr
          exact absurd (by simp) (hnonew id q)
        · rcases t0 with _ | _ | _ | ⟨_, _ | _, _⟩ | _ | _ <;> exact hr.elim
  have hby : ∀ y z, e = y ++ z → ∀ m ∈ outs (run {} (x ++ Ev.start pid (.publish t d keep) :: y)) z, m.to = c → m.msg.topic = t → m.by_ = pid := by
    intro y z
    induction z generalizing y with
    | nil => intro _ m h; cases h
    | cons ev z ih =>
      intro hy m h h1 h2
      rcases List.mem_append.mp h with h | h
      · obtain ⟨j1, j2⟩ := inv y ⟨ev :: z, hy⟩
        obtain ⟨now, _, ⟨q, hq⟩ | ⟨todo, zs, hq, _⟩⟩ := sent_from h
        · rw [h1] at hq; exact absurd hq (j2 q _)
        · exact j1 _ _ hq (by simp only [Task.publishes, h2, decide_true])
      · refine ih (y ++ [ev]) (by rw [hy]; simp) m ?_ h1 h2
        have hcut2 : x ++ Ev.start pid (.publish t d keep) :: (y ++ [ev]) = (x ++ Ev.start pid (.publish t d keep) :: y) ++ [ev] := by simp
        rw [hcut2, run_snoc]
        exact h
  have hby := hby [] e rfl
  have hcut3 : x ++ ([Ev.start pid (.publish t d keep)] ++ e) = (x ++ [Ev.start pid (.publish t d keep)]) ++ e := by simp
  rw [hcut3, outs_append] at hone ⊢
  have hbefore : outs {} (x ++ [Ev.start pid (.publish t d keep)]) = outs {} x := by rw [outs_snoc]; simp [step]
  rw [hbefore] at hone ⊢
  have h0 : byTo pid c (outs {} x) = [] := by
    rw [byTo_nil]
    rintro m hm ⟨rfl, -⟩
    exact hnp (sent_started hm)
  rw [byTo_append, h0, List.nil_append] at hone
  have hsame : aboutTo c t (outs (run {} (x ++ [Ev.start pid (.publish t d keep)])) e)
      = aboutTo c t (byTo pid c (outs (run {} (x ++ [Ev.start pid (.publish t d keep)])) e)) := by
    simp only [aboutTo, byTo, List.filter_filter]
    refine List.filter_congr ?_
    intro m hm
    by_cases hh : m.to = c ∧ m.msg.topic = t
    · simp [hh, hby m hm hh.1 hh.2]
    · simp [hh]
  rw [aboutTo_append, hsame, hone, show aboutTo c t [⟨pid, c, ⟨t, d⟩⟩] = [⟨pid, c, ⟨t, d⟩⟩] by simp [aboutTo], List.getLast?_append]
  rfl

/-- Client 1 holds `a`; an earlier publish on `a` has been answered, one on `b` is in progress. -/
example :
    let a : List Ev := [.connect 1]
    let b : List Ev := [.next 0 0, .start 1 (.publish [97] [1] none), .next 1 0, .next 1 0, .next 1 0, .start 2 (.publish [98] [2] none)]
    let e : List Ev := [.next 2 0, .next 3 0, .next 3 0, .next 2 0, .next 3 0]
    let es := a ++ Ev.start 0 (.subscribe 1 [97]) :: (b ++ Ev.start 3 (.publish [97] [3] (some (some ⟨[3], none, none⟩))) :: e)
    (starts es).Nodup ∧ (run {} (a ++ Ev.start 0 (.subscribe 1 [97]) :: b)).done 0 ∧ (run {} es).done 3 ∧
    (run {} (a ++ Ev.start 0 (.subscribe 1 [97]) :: b)).tasks = [(2, .route [98] [2])] ∧
    (aboutTo 1 [97] (outs {} es)).map (·.msg) = [⟨[97], [1]⟩, ⟨[97], [3]⟩] := by decide

theorem collectPattern_plain (now : Nat) (p : List Str) (hp : ∀ s ∈ p, s ≠ plusS ∧ s ≠ hashS) (path : Str) (n : Node) :
    collectPattern now p path n = liveHere now (pathOf path p) (retAt p n) := by
  induction p generalizing path n with
  | nil => rfl
  | cons s p ih =>
    have hs := hp s (List.mem_cons_self ..)
    rw [collectPattern, if_neg hs.1, if_neg hs.2, retAt_cons]
    cases mget n.children s with
    | none => rfl
    | some ch => exact ih (fun x hx => hp x (List.mem_cons_of_mem _ hx)) _ _

/-- C75: whatever else is going on, a new subscriber to a topic is sent the value stored by the retained
publish that began last (`r` is that value: the payload of the publish with its expiry). -/
theorem C75_greeting (x e : List Ev) (t : Str) (d : Bytes) (r : Retained) (pid : Nat)
    (hlast : ∀ id d' k', Ev.start id (.publish t d' (some k')) ∉ e) (hw : noWild t = true) (hnam : named t = true)
    (c : Cid) (hc : (run {} (x ++ Ev.start pid (.publish t d (some (some r))) :: e)).connected c = true)
    (hg : c ∉ (run {} (x ++ Ev.start pid (.publish t d (some (some r))) :: e)).gone) (now : Nat) (hnow : r.expired now = false)
    (id : Nat) : greeting (run {} (x ++ Ev.start pid (.publish t d (some (some r))) :: e)) now c t id = [⟨t, r.data⟩] := by
  have hret : retAt (split t) (run {} (x ++ Ev.start pid (.publish t d (some (some r))) :: e)).tree = some r := by
    suffices h : ∀ y, (∃ z, e = y ++ z) → retAt (split t) (run {} (x ++ Ev.start pid (.publish t d (some (some r))) :: y)).tree = some r from
      h e ⟨[], by simp⟩
    intro y
    induction y using Verif.Sdk.snoc_ind with
    | h0 =>
      intro _
      rw [run_snoc]
      simp only [step, begin_]
      rw [retAt_setRetained, if_pos rfl]
    | h1 y ev ih =>
      rintro ⟨z, rfl⟩
      have jh := ih ⟨ev :: z, by simp⟩
      have hcut : x ++ Ev.start pid (.publish t d (some (some r))) :: (y ++ [ev]) = (x ++ Ev.start pid (.publish t d (some (some r))) :: y) ++ [ev] := by simp
      rw [hcut, run_snoc]
      rcases ret_step (run {} (x ++ Ev.start pid (.publish t d (some (some r))) :: y)) ev (split t) with h | ⟨id, t', d', r', rfl, ht, _⟩
      · rw [h]; exact jh
      · have := split_inj ht
        subst this
        exact absurd (by simp) (hlast id d' r')
  generalize run {} (x ++ Ev.start pid (.publish t d (some (some r))) :: e) = s at *
  obtain ⟨subs, hs⟩ := Option.isSome_iff_exists.mp hc
  simp only [greeting, outs, step, begin_, hs]
  rw [mget_mset_same]
  simp only [advance, if_neg hg]
  rw [collectPattern_plain now _ (noWild_iff.mp hw), retAt_insert, hret, named_label hnam]
  have hstrip : stripLabel t = t := by
    cases t with
    | nil => rfl
    | cons b t =>
      simp only [named, decide_eq_true_eq] at hnam
      simp only [stripLabel]
      split
      · next h => cases h; exact absurd rfl hnam
      · rfl
  simp only [liveHere, hnow]
  simp [hstrip]

/-- C75 fails: two retained publishes on the same topic at the same time leave the retained value of the one and the last message
of the other. -/
theorem C75_violated : ∃ es : List Ev, (starts es).Nodup ∧ (run {} es).tasks = [] ∧ (run {} es).connected 1 = true ∧
    (run {} es).connected 2 = true ∧
    (aboutTo 1 [97] (outs {} es)).map (·.msg) = [⟨[97], [2]⟩, ⟨[97], [1]⟩] ∧
    ∀ now, greeting (run {} es) now 2 [97] 9 = [⟨[97], [2]⟩] :=
  ⟨[.connect 1, .connect 2, .start 0 (.subscribe 1 [97]), .next 0 0, .start 1 (.publish [97] [1] (some (some ⟨[1], none, none⟩))),
    .start 2 (.publish [97] [2] (some (some ⟨[2], none, none⟩))), .next 2 0, .next 2 0, .next 2 0, .next 1 0, .next 1 0, .next 1 0],
   by decide, by decide, by decide, by decide, by decide, fun _ => rfl⟩

end Verif.PubSub.Race
