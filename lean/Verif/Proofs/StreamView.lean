import Verif.Proofs.StreamTopic

/-!
# The state of a group is what its observer says
-/

namespace Verif.Stream

open Group

/-- A group agrees with its observer. -/
structure GRel (cfg : Cfg) (g : Group) (v : View) : Prop where
  inv : GInv v.head g v.fate
  gen : g.gen = v.gen
  mp : g.maxPending = cfg.maxPending
  aw : g.ackWait = cfg.ackWait
  md : g.maxDeliveries = cfg.maxDeliveries
  mem : ∀ c conn, mget g.members c = some conn ↔ (c, conn) ∈ v.members

/-- A topic agrees with the observer of group `name`; `J`: who has ever joined. -/
structure Rel (name : Str) (t : Topic) (v : View) (J : List (Str × Str)) : Prop where
  next : v.next = t.log.next
  head : v.head = t.log.head
  known : v.known = mhas t.groups name
  grp : ∀ g, mget t.groups name = some g → GRel t.cfg g v
  unk : mget t.groups name = none → v.gen = 1 ∧ v.members = []
  bind : ∀ c conn, (c, conn) ∈ v.members → (name, c) ∈ (mget t.clients conn).getD []
  stale : ∀ c conn, (name, c) ∈ (mget t.clients conn).getD [] → (c, conn) ∈ J
  uniq : ∀ c conn conn', (c, conn) ∈ J → (c, conn') ∈ J → conn = conn'

theorem GRel.mhas {cfg : Cfg} {g : Group} {v : View} (h : GRel cfg g v) {c : Str} :
    mhas g.members c = true ↔ ∃ conn, (c, conn) ∈ v.members := by
  simp only [Verif.mhas]
  constructor
  · intro hc
    obtain ⟨conn, hh⟩ := Option.isSome_iff_exists.1 hc
    exact ⟨conn, (h.mem c conn).1 hh⟩
  · rintro ⟨conn, hh⟩
    rw [(h.mem c conn).2 hh]; rfl

theorem GRel.clamped {cfg : Cfg} {g : Group} {v : View} (h : GRel cfg g v) : g.clampHead v.head = (g, false) :=
  clampHead_noop h.inv.core.clamped

/-- The relation only depends on these parts of the topic. -/
theorem Rel.frame {name : Str} {t t' : Topic} {v : View} {J : List (Str × Str)} (h : Rel name t v J)
    (h1 : t'.log.next = t.log.next) (h2 : t'.log.head = t.log.head) (h3 : mget t'.groups name = mget t.groups name)
    (h4 : t'.clients = t.clients) (h5 : t'.cfg = t.cfg) : Rel name t' v J :=
  { next := by rw [h1]; exact h.next, head := by rw [h2]; exact h.head
    known := by unfold mhas at *; rw [h3]; exact h.known
    grp := by rw [h3, h5]; exact h.grp
    unk := by rw [h3]; exact h.unk
    bind := by rw [h4]; exact h.bind
    stale := by rw [h4]; exact h.stale
    uniq := h.uniq }

/-- The group is replaced by one that agrees with the new view. -/
theorem Rel.setGroup {name : Str} {t t' : Topic} {v v' : View} {J : List (Str × Str)} (h : Rel name t v J)
    {g' : Group} (hg : GRel t.cfg g' v') (h1 : v'.next = t'.log.next) (h2 : v'.head = t'.log.head)
    (h3 : t'.groups = mset t.groups name g') (h4 : t'.clients = t.clients) (h5 : t'.cfg = t.cfg)
    (h6 : v'.known = true) (h7 : v'.members = v.members) : Rel name t' v' J :=
  { next := h1, head := h2
    known := by simp [h6, mhas, h3, mget_mset]
    grp := by
      intro g hgg
      rw [h3, mget_mset_same] at hgg
      cases hgg
      rw [h5]; exact hg
    unk := by rw [h3, mget_mset_same]; intro x; cases x
    bind := by rw [h4, h7]; exact h.bind
    stale := by rw [h4]; exact h.stale
    uniq := h.uniq }

theorem Rel.known_of {name : Str} {t : Topic} {v : View} {J : List (Str × Str)} (h : Rel name t v J) {g : Group}
    (hg : mget t.groups name = some g) : v.known = true := by
  rw [h.known]; simp [mhas, hg]

/-! ### Fetching -/

/-- What an answer to a fetch has to satisfy. -/
structure Served (cfg : Cfg) (t : Topic) (v : View) (q : Query) (now : Nat) (ms : List Msg) : Prop where
  legal : Legal cfg.maxDeliveries cfg.ackWait q.consumer now v.fate ms
  auth : ms ≠ [] → q.gen = v.gen ∧ ∃ conn, (q.consumer, conn) ∈ v.members

theorem inactive_none {g : Group} {c : Str} {gen : Nat} (h : g.inactive c gen = none) :
    gen = g.gen ∧ mhas g.members c = true := by
  unfold Group.inactive at h
  split at h
  · cases h
  · next h1 =>
    split at h
    · cases h
    · next h2 =>
      simp only [ne_eq, Decidable.not_not] at h1
      simp only [Bool.not_eq_true', Bool.not_eq_false] at h2
      exact ⟨h1, h2⟩

theorem GRel.delivered {cfg : Cfg} {g g' : Group} {v : View} (h : GRel cfg g v) {c : Str} {now : Nat} {ms : List Msg}
    (hd : Delivered cfg.ackWait c now v.head g v.fate g' ms) :
    GRel cfg g' (v.obs cfg.maxDeliveries cfg.ackWait (deliveries c now ms)) := by
  refine ⟨?_, hd.same.gen.trans h.gen, hd.same.maxPending.trans h.mp, hd.same.ackWait.trans h.aw,
    hd.same.maxDeliveries.trans h.md, ?_⟩
  · have := hd.inv
    rw [h.md] at this
    exact this
  · rw [hd.same.members]; exact h.mem

theorem GRel.cold {cfg : Cfg} {g : Group} {v : View} (h : GRel cfg g v) (b : Bool) :
    GRel cfg { g with fetchingCold := b } v := ⟨h.inv.cold b, h.gen, h.mp, h.aw, h.md, h.mem⟩

theorem obs_nil (max wait : Nat) (v : View) : v.obs max wait [] = v := rfl

/-- A fetch of the group from memory. -/
theorem fetch_rel {cfg : Cfg} {g : Group} {v : View} (h : GRel cfg g v) {a : Ask} (hh : a.head = v.head)
    (hw : WindowOk a.log a.ramStart) (gen limit : Nat) :
    (∃ e, (g.fetch a gen limit) = (g, .error e)) ∨
    ∃ ms, (g.fetch a gen limit).2 = .ok ms
      ∧ GRel cfg (g.fetch a gen limit).1 (v.obs cfg.maxDeliveries cfg.ackWait (deliveries a.consumer a.now ms))
      ∧ Legal cfg.maxDeliveries cfg.ackWait a.consumer a.now v.fate ms
      ∧ gen = v.gen ∧ (∃ conn, (a.consumer, conn) ∈ v.members) ∧ (∀ m ∈ ms, m ∈ a.log) ∧ ms.length ≤ limit := by
  unfold Group.fetch
  cases hi : g.inactive a.consumer gen with
  | some e => exact .inl ⟨e, rfl⟩
  | none =>
    right
    obtain ⟨h1, h2⟩ := inactive_none hi
    simp only
    rw [hh, h.clamped]
    obtain ⟨d1, d2, d3⟩ := deliver_spec (wait := cfg.ackWait) hh hw g v.fate limit h.inv h2
    refine ⟨_, rfl, h.delivered d1, ?_, h1.trans h.gen, h.mhas.1 h2, d2, d3⟩
    rw [← h.md]; exact d1.legal

/-- An attempt by a member of the group. -/
theorem tryFetch_same {name : Str} {t : Topic} {v : View} {J : List (Str × Str)} (ht : TInv t) (h : Rel name t v J)
    (consumer : Str) (gen limit now : Nat) :
    (∃ ms, (t.tryFetch name consumer gen limit now).2 = .ok (.ready ms)
      ∧ Rel name (t.tryFetch name consumer gen limit now).1
          (v.obs t.cfg.maxDeliveries t.cfg.ackWait (deliveries consumer now ms)) J
      ∧ Served t.cfg t v ⟨name, consumer, gen, limit⟩ now ms
      ∧ ms.length ≤ limit ∧ ∀ m ∈ ms, m ∈ t.log.msgs)
    ∨ ((∀ ms, (t.tryFetch name consumer gen limit now).2 ≠ .ok (.ready ms))
      ∧ Rel name (t.tryFetch name consumer gen limit now).1 v J) := by
  unfold Topic.tryFetch
  cases hg : mget t.groups name with
  | none => exact .inr ⟨(fun ms hh => by cases hh), h⟩
  | some g =>
    have hgr := h.grp g hg
    have hk := h.known_of hg
    have hcl : g.clampHead t.log.head = (g, false) := by rw [← h.head]; exact hgr.clamped
    simp only [hcl]
    by_cases hb : g.backpressured = true
    · rw [if_pos hb]
      left
      refine ⟨[], rfl, ?_, ⟨trivial, fun x => absurd rfl x⟩, by simp, by simp⟩
      exact h.setGroup (v' := v) hgr h.next h.head rfl rfl rfl hk rfl
    · rw [if_neg hb]
      rcases fetch_rel hgr (a := t.ask consumer now) h.head.symm ht.log.win gen limit with
        ⟨e, he⟩ | ⟨ms, he, a1, a2, a3, a4, a5, a6⟩
      · rw [he]
        right
        refine ⟨(fun ms hh => by cases hh), ?_⟩
        exact h.setGroup (v' := v) hgr h.next h.head rfl rfl rfl hk rfl
      · rw [he]
        simp only
        by_cases hms : ms = []
        · subst hms
          have a1' : GRel t.cfg (g.fetch (t.ask consumer now) gen limit).1 v := a1
          unfold Topic.decideFetch
          rw [if_neg (by simp)]
          by_cases hfc : (g.fetch (t.ask consumer now) gen limit).1.fetchingCold = true
          · rw [if_pos hfc]
            left
            refine ⟨[], rfl, ?_, ⟨trivial, fun x => absurd rfl x⟩, by simp, by simp⟩
            exact h.setGroup (v' := v) a1' h.next h.head rfl rfl rfl hk rfl
          · rw [if_neg hfc]
            right
            split
            · refine ⟨(fun ms hh => by cases hh), ?_⟩
              exact h.setGroup (v' := v) (a1'.cold true) h.next h.head rfl rfl rfl hk rfl
            · refine ⟨(fun ms hh => by cases hh), ?_⟩
              exact h.setGroup (v' := v) a1' h.next h.head rfl rfl rfl hk rfl
        · left
          have hne : (!ms.isEmpty) = true := by cases ms <;> simp_all
          unfold Topic.decideFetch
          rw [if_pos hne]
          refine ⟨ms, rfl, ?_, ⟨a2, fun _ => ⟨a3, a4⟩⟩, a6, a5⟩
          exact h.setGroup a1 h.next h.head rfl rfl rfl hk rfl

/-- An attempt by a member of another group. -/
theorem tryFetch_other {name : Str} (t : Topic) {group : Str} (hn : name ≠ group) (consumer : Str) (gen limit now : Nat) :
    mget (t.tryFetch group consumer gen limit now).1.groups name = mget t.groups name := by
  unfold Topic.tryFetch
  split
  · rfl
  · simp only
    split
    · exact mget_mset_ne _ _ hn
    · split
      · exact mget_mset_ne _ _ hn
      · exact mget_mset_ne _ _ hn

/-- The answer of a step to a fetch of the group, if it is one. -/
def Answers (cfg : Cfg) (t : Topic) (name : Str) (v : View) (now : Nat) (o : Out) : Prop :=
  ∀ q ms, o = .fetched q (.ok ms) → q.group = name → Served cfg t v q now ms

theorem answer_of_none {max wait : Nat} {name : Str} {v : View} {now : Nat} {o : Out}
    (h : ∀ q ms, o = .fetched q (.ok ms) → ms = [] ∨ q.group ≠ name) : v.answer max wait name now o = v := by
  unfold View.answer
  split
  · next q ms =>
    split
    · next hq =>
      rcases h q ms rfl with h | h
      · rw [h]; rfl
      · exact absurd hq h
    · rfl
  · rfl

theorem Served.nil (cfg : Cfg) (t : Topic) (v : View) (q : Query) (now : Nat) : Served cfg t v q now [] :=
  ⟨trivial, fun x => absurd rfl x⟩

theorem attempt_rel {name : Str} {t : Topic} {v : View} {J : List (Str × Str)} (ht : TInv t) (h : Rel name t v J)
    (id now : Nat) :
    Rel name (t.attempt id now).1 (v.answer t.cfg.maxDeliveries t.cfg.ackWait name now (t.attempt id now).2) J
    ∧ Answers t.cfg t name v now (t.attempt id now).2
    ∧ (∀ q ms, (t.attempt id now).2 = .fetched q (.ok ms) → q.group = name →
        ms.length ≤ q.limit ∧ ∀ m ∈ ms, m ∈ t.log.msgs) := by
  unfold Topic.attempt
  cases hop : mget t.fetches id with
  | none => exact ⟨h, (fun q ms hh => by cases hh), (fun q ms hh => by cases hh)⟩
  | some op =>
    simp only
    by_cases hph : op.phase ≠ .ready ∧ op.phase ≠ .waiting
    · rw [if_pos hph]
      exact ⟨h, (fun q ms hh => by cases hh), (fun q ms hh => by cases hh)⟩
    · rw [if_neg hph]
      obtain ⟨hf, _, hcl, _⟩ := tryFetch_frame t op.group op.consumer op.gen op.limit now
      have hset : ∀ {t1 : Topic} {v'} (x : List (Nat × FetchOp)) (y : List SCmd), Rel name t1 v' J →
          Rel name { t1 with fetches := x, chan := y } v' J :=
        fun x y hr => hr.frame rfl rfl rfl rfl rfl
      by_cases hn : op.group = name
      · rcases tryFetch_same ht h op.consumer op.gen op.limit now with ⟨ms, e1, e2, e3, e4, e5⟩ | ⟨e1, e2⟩
        · rw [hn, e1]
          simp only
          refine ⟨?_, ?_, ?_⟩
          · simp only [Topic.endFetch, View.answer]
            rw [if_pos (show op.query.group = name from hn)]
            exact hset _ _ e2
          · intro q ms' hh hq
            simp only [Topic.endFetch, Out.fetched.injEq, Except.ok.injEq] at hh
            obtain ⟨hh1, hh2⟩ := hh
            subst hh1 hh2
            have : op.query = ⟨name, op.consumer, op.gen, op.limit⟩ := by simp [FetchOp.query, hn]
            rw [this]; exact e3
          · intro q ms' hh hq
            simp only [Topic.endFetch, Out.fetched.injEq, Except.ok.injEq] at hh
            obtain ⟨hh1, hh2⟩ := hh
            subst hh1 hh2
            exact ⟨e4, e5⟩
        · rw [hn]
          have key : ∀ (t' : Topic) (o : Out), Rel name t' v J → (∀ q ms, o = .fetched q (.ok ms) → ms = []) →
              Rel name t' (v.answer t.cfg.maxDeliveries t.cfg.ackWait name now o) J
              ∧ Answers t.cfg t name v now o
              ∧ (∀ q ms, o = .fetched q (.ok ms) → q.group = name → ms.length ≤ q.limit ∧ ∀ m ∈ ms, m ∈ t.log.msgs) := by
            intro t' o hr ho
            refine ⟨?_, fun q ms hh _ => ?_, fun q ms hh _ => ?_⟩
            · rw [answer_of_none (fun q ms hh => .inl (ho q ms hh))]; exact hr
            · rw [ho q ms hh]; exact Served.nil _ _ _ _ _
            · rw [ho q ms hh]; exact ⟨by simp, by simp⟩
          split
          · refine key _ _ (hset _ _ e2) (fun q ms hh => ?_)
            simp only [Topic.endFetch, Out.fetched.injEq] at hh
            have := hh.2
            split at this <;> cases this
            rfl
          · next ms hms => exact absurd hms (e1 ms)
          · exact key _ _ (hset _ _ e2) (fun q ms hh => by cases hh)
          · split
            · exact key _ _ (e2.frame rfl rfl rfl rfl rfl) (fun q ms hh => by cases hh)
            · refine key _ _ (hset _ _ e2) (fun q ms hh => ?_)
              simp only [Topic.endFetch, Out.fetched.injEq, Except.ok.injEq] at hh
              exact hh.2.symm
      · have hsame := tryFetch_other t (fun e => hn e.symm) op.consumer op.gen op.limit now
        have e2 : Rel name (t.tryFetch op.group op.consumer op.gen op.limit now).1 v J :=
          h.frame (by rw [hf.log]) (by rw [hf.log]) hsame hcl hf.cfg
        have key : ∀ (t' : Topic) (o : Out), Rel name t' v J → (∀ q r, o = .fetched q r → q = op.query) →
            Rel name t' (v.answer t.cfg.maxDeliveries t.cfg.ackWait name now o) J
            ∧ Answers t.cfg t name v now o
            ∧ (∀ q ms, o = .fetched q (.ok ms) → q.group = name → ms.length ≤ q.limit ∧ ∀ m ∈ ms, m ∈ t.log.msgs) := by
          intro t' o hr ho
          have hno : ∀ q r, o = .fetched q r → q.group ≠ name := by
            intro q r hh hq
            rw [ho q r hh] at hq
            exact hn hq
          refine ⟨?_, fun q ms hh hq => absurd hq (hno _ _ hh), fun q ms hh hq => absurd hq (hno _ _ hh)⟩
          rw [answer_of_none (fun q ms hh => .inr (hno _ _ hh))]; exact hr
        have hq : ∀ (r q r'), Out.fetched op.query r = .fetched q r' → q = op.query := by
          intro r q r' hh
          simp only [Out.fetched.injEq] at hh
          exact hh.1.symm
        split
        · exact key _ _ (hset _ _ e2) (hq _)
        · exact key _ _ (hset _ _ e2) (hq _)
        · exact key _ _ (hset _ _ e2) (fun q ms hh => by cases hh)
        · split
          · exact key _ _ (e2.frame rfl rfl rfl rfl rfl) (fun q ms hh => by cases hh)
          · exact key _ _ (hset _ _ e2) (hq _)

/-! ### The end of a read from disk -/

theorem registerCold_rel {cfg : Cfg} {g : Group} {v : View} (h : GRel cfg g v) (c : Str) (now gen : Nat)
    (msgs : List Msg) :
    (∃ e, g.registerCold c now gen msgs v.head = (g, .error e)) ∨
    ∃ ms, (g.registerCold c now gen msgs v.head).2 = .ok ms
      ∧ GRel cfg (g.registerCold c now gen msgs v.head).1 (v.obs cfg.maxDeliveries cfg.ackWait (deliveries c now ms))
      ∧ Legal cfg.maxDeliveries cfg.ackWait c now v.fate ms
      ∧ gen = v.gen ∧ (∃ conn, (c, conn) ∈ v.members) ∧ ms.Sublist msgs := by
  unfold Group.registerCold
  cases hi : g.inactive c gen with
  | some e => exact .inl ⟨e, rfl⟩
  | none =>
    right
    obtain ⟨h1, h2⟩ := inactive_none hi
    simp only
    rw [h.clamped]
    obtain ⟨ms, e1, e2, e3⟩ := coldLoop_spec (wait := cfg.ackWait) (c := c) (now := now) msgs g v.fate [] h.inv h2
    rw [List.nil_append] at e1
    refine ⟨ms, by rw [e1], h.delivered e2, ?_, h1.trans h.gen, h.mhas.1 h2, e3⟩
    rw [← h.md]; exact e2.legal

theorem finishCold_rel {name : Str} {t : Topic} {v : View} {J : List (Str × Str)} (h : Rel name t v J)
    (op : FetchOp) (msgs : List Msg) (now : Nat) :
    Rel name (t.finishCold op msgs now).1
      (v.answer t.cfg.maxDeliveries t.cfg.ackWait name now (.fetched op.query (t.finishCold op msgs now).2)) J
    ∧ Answers t.cfg t name v now (.fetched op.query (t.finishCold op msgs now).2)
    ∧ (∀ ms, (t.finishCold op msgs now).2 = .ok ms → op.group = name → ms.Sublist msgs) := by
  obtain ⟨hf, hcl⟩ := finishCold_frame t op msgs now
  by_cases hn : op.group = name
  · subst hn
    have key : ∀ (t' : Topic) (r : Except GErr (List Msg)), Rel op.group t' v J → (∀ ms, r = .ok ms → ms = []) →
        Rel op.group t' (v.answer t.cfg.maxDeliveries t.cfg.ackWait op.group now (.fetched op.query r)) J
        ∧ Answers t.cfg t op.group v now (.fetched op.query r)
        ∧ (∀ ms, r = .ok ms → True → ms.Sublist msgs) := by
      intro t' r hr ho
      refine ⟨?_, fun q ms hh _ => ?_, fun ms hh _ => ?_⟩
      · rw [answer_of_none (fun q ms hh => .inl (by simp only [Out.fetched.injEq] at hh; exact ho ms hh.2))]; exact hr
      · simp only [Out.fetched.injEq] at hh
        rw [ho ms hh.2]; exact Served.nil _ _ _ _ _
      · rw [ho ms hh]; simp
    unfold Topic.finishCold
    cases hg : mget t.groups op.group with
    | none =>
      obtain ⟨k1, k2, k3⟩ := key t (.error .groupNotFound) h (fun ms hh => by cases hh)
      exact ⟨k1, k2, fun ms hh _ => k3 ms hh trivial⟩
    | some g =>
      have hgr := (h.grp g hg).cold false
      have hk := h.known_of hg
      have hc : ({ g with fetchingCold := false } : Group).clampHead t.log.head = ({ g with fetchingCold := false }, false) := by
        rw [← h.head]; exact hgr.clamped
      simp only [hc]
      generalize hg0 : ({ g with fetchingCold := false } : Group) = g0 at *
      by_cases hep : g.epoch ≠ op.token
      · rw [if_pos hep]
        exact key _ _ (h.setGroup (v' := v) hgr h.next h.head rfl rfl rfl hk rfl) (fun ms hh => by cases hh; rfl)
      · rw [if_neg hep]
        rcases registerCold_rel hgr op.consumer now op.gen msgs with ⟨e, he⟩ | ⟨ms, he, a1, a2, a3, a4, a5⟩
        · rw [h.head] at he
          rw [he]
          exact key _ _ (h.setGroup (v' := v) hgr h.next h.head rfl rfl rfl hk rfl) (fun ms hh => by cases hh)
        · rw [h.head] at he a1
          rw [he]
          refine ⟨?_, ?_, ?_⟩
          · simp only [View.answer]
            rw [if_pos (show op.query.group = op.group from rfl)]
            exact h.setGroup a1 h.next h.head rfl rfl rfl hk rfl
          · intro q ms' hh hq
            simp only [Out.fetched.injEq, Except.ok.injEq] at hh
            obtain ⟨hh1, hh2⟩ := hh
            subst hh1 hh2
            exact ⟨a2, fun _ => ⟨a3, a4⟩⟩
          · intro ms' hh _
            cases hh
            exact a5
  · have hsame : mget (t.finishCold op msgs now).1.groups name = mget t.groups name := by
      have hn' : name ≠ op.group := fun e => hn e.symm
      unfold Topic.finishCold
      split
      · rfl
      · simp only
        split
        · exact mget_mset_ne _ _ hn'
        · split
          · exact mget_mset_ne _ _ hn'
          · exact mget_mset_ne _ _ hn'
    refine ⟨?_, fun q ms hh hq => ?_, fun ms _ hq => absurd hq hn⟩
    · rw [answer_of_none (fun q ms hh => .inr (by
        simp only [Out.fetched.injEq] at hh
        rw [← hh.1]; exact hn))]
      exact h.frame (by rw [hf.log]) (by rw [hf.log]) hsame hcl hf.cfg
    · simp only [Out.fetched.injEq] at hh
      rw [← hh.1] at hq
      exact absurd hq hn

/-! ### Leaving -/

/-- The view after consumers have left. -/
def View.leftBy (max wait : Nat) (v : View) (who : Str → Bool) : View :=
  { v.obs max wait [.left who] with members := v.members.filter (fun m => !who m.1) }

theorem fates_left (max wait : Nat) (F : Nat → Fate) (who : Str → Bool) (s : Nat) :
    fates max wait F (.left who) s = match F s with
      | .held c t k => if who c then (Fate.held c t k).release max else .held c t k
      | f => f := by
  simp only [fates]
  cases F s <;> rfl

theorem leftBy_leftBy (max wait : Nat) (v : View) (p q : Str → Bool) :
    (v.leftBy max wait p).leftBy max wait q = v.leftBy max wait (fun c => p c || q c) := by
  unfold View.leftBy View.obs
  simp only [List.foldl_cons, List.foldl_nil, View.mk.injEq, true_and, List.filter_filter]
  refine ⟨List.filter_congr (fun m _ => by cases p m.1 <;> cases q m.1 <;> rfl), funext fun s => ?_⟩
  rw [fates_left, fates_left, fates_left]
  cases v.fate s with
  | held c t k =>
    by_cases hp : p c = true
    · simp only [hp, if_true, Bool.true_or, Fate.release]
      by_cases hm : max ≤ k
      · rw [if_pos hm]
      · rw [if_neg hm]
    · simp [hp]
  | _ => rfl

theorem GRel.left_none {cfg : Cfg} {g : Group} {v : View} (h : GRel cfg g v) {who : Str → Bool}
    (hw : ∀ c conn, (c, conn) ∈ v.members → who c = false) : v.leftBy cfg.maxDeliveries cfg.ackWait who = v := by
  unfold View.leftBy View.obs
  cases v with
  | mk known next head members gen fate =>
    simp only [List.foldl_cons, List.foldl_nil, View.mk.injEq, true_and]
    refine ⟨List.filter_eq_self.2 (fun m hm => by rw [hw m.1 m.2 hm]; rfl), funext fun s => ?_⟩
    rw [fates_left]
    cases hf : fate s with
    | held c t k =>
      have hp := (h.inv.core.held s c t k).1 hf
      obtain ⟨conn, hc⟩ := h.mhas.1 (h.inv.mem s _ hp)
      simp only [hw c conn hc]
      rfl
    | _ => rfl

theorem GRel.removeMember {cfg : Cfg} {g : Group} {v : View} (h : GRel cfg g v) {c conn : Str}
    (hc : mget g.members c = some conn) (order : List Nat) :
    GRel cfg (g.removeMember c order).1 (v.leftBy cfg.maxDeliveries cfg.ackWait (fun c' => decide (c' = c))) := by
  obtain ⟨_, h2, h3, h4, h5, h6, h7⟩ := removeMember_spec h.inv c order cfg.ackWait hc
  refine ⟨?_, h4.trans h.gen, h5.trans h.mp, h6.trans h.aw, h7.trans h.md, fun c' conn' => ?_⟩
  · rw [h.md] at h2; exact h2
  · rw [h3]
    simp only [View.leftBy, List.mem_filter, mget_mdel]
    by_cases hcc : c' = c
    · rw [if_pos hcc, hcc]; simp
    · rw [if_neg hcc, h.mem]; simp [hcc]

theorem dropBinding_rel {name : Str} {cfg : Cfg} (order : Str → List Nat) {t : Topic} {v : View} {g : Group}
    (hg : mget t.groups name = some g) (h : GRel cfg g v) (b : Str × Str) :
    ∃ g', mget (Topic.dropBinding order t b).groups name = some g'
      ∧ GRel cfg g' (v.leftBy cfg.maxDeliveries cfg.ackWait (fun c => decide ((name, c) = b))) := by
  obtain ⟨bg, bc⟩ := b
  by_cases hb : bg = name
  · subst hb
    unfold Topic.dropBinding
    simp only [hg]
    have hfun : (fun c => decide ((bg, c) = (bg, bc))) = (fun c' : Str => decide (c' = bc)) := by
      funext c; simp
    rw [hfun]
    cases hm : mget g.members bc with
    | none =>
      have hr : g.removeMember bc (order bg) = (g, none) := by unfold Group.removeMember; rw [hm]
      rw [hr]
      refine ⟨g, hg, ?_⟩
      rw [h.left_none]
      · exact h
      · intro c conn hc
        have := (h.mem c conn).2 hc
        simp only [decide_eq_false_iff_not]
        intro e; rw [e, hm] at this; cases this
    | some conn =>
      have hr := (removeMember_spec h.inv bc (order bg) 0 hm).1
      rw [hr]
      exact ⟨_, mget_mset_same _ _ _, h.removeMember hm _⟩
  · have hfun : (fun c => decide ((name, c) = (bg, bc))) = (fun _ : Str => false) := by
      funext c; simp only [Prod.mk.injEq, decide_eq_false_iff_not]; exact fun e => hb e.1.symm
    rw [hfun]
    rw [h.left_none (who := fun _ => false) (fun _ _ _ => rfl)]
    refine ⟨g, ?_, h⟩
    unfold Topic.dropBinding
    split
    · exact hg
    · split
      · exact hg
      · rw [mget_mset_ne _ _ (fun e => hb e.symm)]; exact hg

theorem dropBindings_rel {name : Str} {cfg : Cfg} (order : Str → List Nat) (bs : List (Str × Str)) {t : Topic} {v : View}
    {g : Group} (hg : mget t.groups name = some g) (h : GRel cfg g v) :
    ∃ g', mget (bs.foldl (Topic.dropBinding order) t).groups name = some g'
      ∧ GRel cfg g' (v.leftBy cfg.maxDeliveries cfg.ackWait (fun c => decide ((name, c) ∈ bs))) := by
  induction bs generalizing t v g with
  | nil =>
    refine ⟨g, hg, ?_⟩
    rw [h.left_none]
    · exact h
    · intro c conn _; simp
  | cons b bs ih =>
    obtain ⟨g1, h1, h2⟩ := dropBinding_rel order hg h b
    obtain ⟨g2, h3, h4⟩ := ih h1 h2
    refine ⟨g2, h3, ?_⟩
    rw [leftBy_leftBy] at h4
    have : (fun c => decide ((name, c) = b) || decide ((name, c) ∈ bs)) = (fun c => decide ((name, c) ∈ b :: bs)) := by
      funext c
      simp only [List.mem_cons, Bool.decide_or]
    rw [this] at h4
    exact h4

theorem dropBindings_none {name : Str} (order : Str → List Nat) (bs : List (Str × Str)) {t : Topic}
    (hg : mget t.groups name = none) : mget (bs.foldl (Topic.dropBinding order) t).groups name = none := by
  induction bs generalizing t with
  | nil => exact hg
  | cons b bs ih =>
    refine ih ?_
    unfold Topic.dropBinding
    split
    · exact hg
    · next g hgg =>
      split
      · exact hg
      · rw [mget_mset_ne]
        · exact hg
        · intro e; rw [← e, hg] at hgg; cases hgg

/-- Who leaves and who is still a member determine the view. -/
theorem GRel.left_congr {cfg : Cfg} {g : Group} {v : View} (h : GRel cfg g v) {p q : Str → Bool}
    (hpq : ∀ c conn, (c, conn) ∈ v.members → p c = q c) (s : Nat) :
    fates cfg.maxDeliveries cfg.ackWait v.fate (.left p) s = fates cfg.maxDeliveries cfg.ackWait v.fate (.left q) s := by
  rw [fates_left, fates_left]
  cases hf : v.fate s with
  | held c t k =>
    have hp := (h.inv.core.held s c t k).1 hf
    obtain ⟨conn, hc⟩ := h.mhas.1 (h.inv.mem s _ hp)
    simp only [hpq c conn hc]
  | _ => rfl

theorem disconnect_rel {name : Str} {t : Topic} {v : View} {J : List (Str × Str)} (h : Rel name t v J) (conn : Str)
    (order : Str → List Nat) :
    Rel name (t.disconnect conn order)
      { v.obs t.cfg.maxDeliveries t.cfg.ackWait [.left (fun c => decide ((c, conn) ∈ v.members))] with
        members := v.members.filter (fun m => m.2 ≠ conn) } J := by
  have hf := disconnect_frame t conn order
  -- the clients afterwards
  have hcl : ∀ cn, (mget (t.disconnect conn order).clients cn).getD []
      = if cn = conn then [] else (mget t.clients cn).getD [] := by
    intro cn
    unfold Topic.disconnect
    cases hb : mget t.clients conn with
    | none =>
      simp only
      split
      · next e => rw [e, hb]; rfl
      · rfl
    | some bs =>
      simp only
      rw [(dropBindings_frame order bs _).2]
      simp only [mget_mdel]
      split <;> rfl
  -- who leaves
  have hwho : ∀ c cn, (c, cn) ∈ v.members →
      (decide ((name, c) ∈ (mget t.clients conn).getD []) = decide ((c, conn) ∈ v.members)
        ∧ (!decide ((name, c) ∈ (mget t.clients conn).getD [])) = decide (cn ≠ conn)) := by
    intro c cn hm
    have hb := h.bind c cn hm
    have hJ := h.stale c cn hb
    by_cases he : cn = conn
    · subst he
      simp [hm, hb]
    · have h1 : (name, c) ∉ (mget t.clients conn).getD [] := fun hx => he (h.uniq c cn conn hJ (h.stale c conn hx))
      have h2 : (c, conn) ∉ v.members := fun hx => h1 (h.bind c conn hx)
      simp [h1, h2, he]
  refine
    { next := by rw [hf.log]; exact h.next, head := by rw [hf.log]; exact h.head, known := ?_, grp := ?_, unk := ?_,
      bind := ?_, stale := ?_, uniq := h.uniq }
  · show v.known = _
    rw [h.known]
    unfold mhas Topic.disconnect
    cases hb : mget t.clients conn with
    | none => rfl
    | some bs =>
      simp only
      cases hg : mget t.groups name with
      | none => rw [dropBindings_none order bs (t := { t with clients := mdel t.clients conn }) hg]
      | some g =>
        obtain ⟨g', h1, _⟩ := dropBindings_rel order bs (t := { t with clients := mdel t.clients conn }) hg (h.grp g hg)
        rw [h1]; rfl
  · intro g' hg'
    rw [hf.cfg]
    cases hg : mget t.groups name with
    | none =>
      unfold Topic.disconnect at hg'
      cases hb : mget t.clients conn with
      | none => rw [hb] at hg'; simp only at hg'; rw [hg] at hg'; cases hg'
      | some bs =>
        rw [hb] at hg'
        simp only at hg'
        rw [dropBindings_none order bs (t := { t with clients := mdel t.clients conn }) hg] at hg'
        cases hg'
    | some g =>
      have hgr := h.grp g hg
      have hview : ({ v.obs t.cfg.maxDeliveries t.cfg.ackWait [.left (fun c => decide ((c, conn) ∈ v.members))] with
          members := v.members.filter (fun m => m.2 ≠ conn) } : View)
          = v.leftBy t.cfg.maxDeliveries t.cfg.ackWait (fun c => decide ((name, c) ∈ (mget t.clients conn).getD [])) := by
        unfold View.leftBy View.obs
        simp only [List.foldl_cons, List.foldl_nil, View.mk.injEq, true_and]
        refine ⟨List.filter_congr (fun m hm => ((hwho m.1 m.2 hm).2).symm), funext fun s => ?_⟩
        exact hgr.left_congr (fun c cn hm => ((hwho c cn hm).1).symm) s
      rw [hview]
      unfold Topic.disconnect at hg'
      cases hb : mget t.clients conn with
      | none =>
        rw [hb] at hg'
        simp only at hg'
        rw [hg] at hg'
        cases hg'
        rw [hgr.left_none]
        · exact hgr
        · intro c cn _; simp
      | some bs =>
        rw [hb] at hg'
        simp only at hg'
        obtain ⟨g'', h1, h2⟩ := dropBindings_rel order bs (t := { t with clients := mdel t.clients conn }) hg hgr
        rw [h1] at hg'
        cases hg'
        exact h2
  · intro hg'
    have : mget t.groups name = none := by
      cases hg : mget t.groups name with
      | none => rfl
      | some g =>
        exfalso
        unfold Topic.disconnect at hg'
        cases hb : mget t.clients conn with
        | none => rw [hb] at hg'; simp only at hg'; rw [hg] at hg'; cases hg'
        | some bs =>
          rw [hb] at hg'
          simp only at hg'
          obtain ⟨g'', h1, _⟩ := dropBindings_rel order bs (t := { t with clients := mdel t.clients conn }) hg (h.grp g hg)
          rw [h1] at hg'; cases hg'
    obtain ⟨a, b⟩ := h.unk this
    exact ⟨a, by simp [b]⟩
  · intro c cn hm
    simp only [List.mem_filter, decide_eq_true_eq] at hm
    rw [hcl, if_neg hm.2]
    exact h.bind c cn hm.1
  · intro c cn hm
    rw [hcl] at hm
    split at hm
    · cases hm
    · exact h.stale c cn hm

theorem unbind_getD (clients : List (Str × List (Str × Str))) (conn group c cn : Str) (b : Str × Str) :
    b ∈ (mget (Topic.unbind clients conn group c) cn).getD [] ↔
      b ∈ (mget clients cn).getD [] ∧ ¬ (cn = conn ∧ b = (group, c)) := by
  unfold Topic.unbind
  cases hb : mget clients conn with
  | none =>
    simp only
    constructor
    · intro h
      refine ⟨h, fun x => ?_⟩
      rw [x.1, hb] at h; cases h
    · exact fun h => h.1
  | some bs =>
    simp only
    by_cases he : (bs.filter (fun b => b ≠ (group, c))).isEmpty = true
    · rw [if_pos he, mget_mdel]
      by_cases hc : cn = conn
      · subst hc
        rw [if_pos rfl, hb]
        simp only [Option.getD_none, List.not_mem_nil, Option.getD_some, true_and, false_iff, not_and,
          Decidable.not_not]
        intro hm
        have := List.filter_eq_nil_iff.1 (List.isEmpty_iff.1 he) b hm
        simpa using this
      · rw [if_neg hc]; simp [hc]
    · rw [if_neg he, mget_mset]
      by_cases hc : cn = conn
      · subst hc
        rw [if_pos rfl, hb]
        simp
      · rw [if_neg hc]; simp [hc]

theorem leave_rel {name : Str} {t : Topic} {v : View} {J : List (Str × Str)} (h : Rel name t v J) (group c : Str)
    (gen : Nat) (order : List Nat) :
    (∃ e, t.leave group c gen order = (t, .err e)) ∨
    ((t.leave group c gen order).2 = .ok
      ∧ Rel name (t.leave group c gen order).1
        (if group = name then
          { v.obs t.cfg.maxDeliveries t.cfg.ackWait [.left (fun c' => decide (c' = c))] with
            members := v.members.filter (fun m => m.1 ≠ c) }
        else v) J) := by
  unfold Topic.leave
  cases hg : mget t.groups group with
  | none => exact .inl ⟨_, rfl⟩
  | some g =>
    simp only
    by_cases hgen : g.gen ≠ gen
    · rw [if_pos hgen]; exact .inl ⟨_, rfl⟩
    · rw [if_neg hgen]
      cases hm : mget g.members c with
      | none =>
        have : (g.removeMember c order).2 = none := by unfold Group.removeMember; rw [hm]
        rw [this]
        exact .inl ⟨_, rfl⟩
      | some conn =>
        have hr : (g.removeMember c order).2 = some conn := by unfold Group.removeMember; rw [hm]
        rw [hr]
        right
        refine ⟨rfl, ?_⟩
        by_cases hn : group = name
        · subst hn
          have hgr := h.grp g hg
          rw [if_pos rfl]
          have hv := hgr.removeMember hm order
          have hfil : v.members.filter (fun m => !decide (m.1 = c)) = v.members.filter (fun m => m.1 ≠ c) := by
            congr 1; funext m; simp
          have hve : ({ v.obs t.cfg.maxDeliveries t.cfg.ackWait [.left (fun c' => decide (c' = c))] with
            members := v.members.filter (fun m => m.1 ≠ c) } : View)
            = v.leftBy t.cfg.maxDeliveries t.cfg.ackWait (fun c' => decide (c' = c)) := by
            unfold View.leftBy; rw [hfil]
          rw [hve]
          have hk := h.known_of hg
          refine
            { next := h.next, head := h.head, known := ?_, grp := ?_, unk := ?_, bind := ?_, stale := ?_, uniq := h.uniq }
          · show v.known = _
            simp [hk, mhas, mget_mset]
          · intro g' hg'
            simp only [mget_mset_same, Option.some.injEq] at hg'
            rw [← hg']; exact hv
          · intro hx; simp only [mget_mset_same] at hx; cases hx
          · intro c' cn hm'
            simp only [View.leftBy, List.mem_filter, Bool.not_eq_true', decide_eq_false_iff_not] at hm'
            rw [unbind_getD]
            refine ⟨h.bind c' cn hm'.1, fun x => hm'.2 ?_⟩
            have := x.2
            simp only [Prod.mk.injEq] at this
            exact this.2
          · intro c' cn hm'
            rw [unbind_getD] at hm'
            exact h.stale c' cn hm'.1
        · rw [if_neg hn]
          refine
            { next := h.next, head := h.head, known := ?_, grp := ?_, unk := ?_, bind := ?_, stale := ?_, uniq := h.uniq }
          · rw [h.known]; simp only [mhas]; rw [mget_mset_ne _ _ (fun e => hn e.symm)]
          · simp only [mget_mset_ne _ _ (fun e : name = group => hn e.symm)]; exact h.grp
          · simp only [mget_mset_ne _ _ (fun e : name = group => hn e.symm)]; exact h.unk
          · intro c' cn hm'
            rw [unbind_getD]
            refine ⟨h.bind c' cn hm', fun x => hn ?_⟩
            have := x.2
            simp only [Prod.mk.injEq] at this
            exact this.1.symm
          · intro c' cn hm'
            rw [unbind_getD] at hm'
            exact h.stale c' cn hm'.1

/-! ### Joining, acknowledging, seeking, time, retention -/

theorem newGroup_rel {t : Topic} {v : View} (ht : TInv t) (hh : v.head = t.log.head) (hm : 1 ≤ t.cfg.maxDeliveries)
    (hgen : v.gen = 1) (hmem : v.members = []) :
    GRel t.cfg t.newGroup (v.obs t.cfg.maxDeliveries t.cfg.ackWait [.restarted v.head]) := by
  have h1 := ht.log.head1
  have := new_inv t.log.head t.cfg.maxPending t.cfg.ackWait t.cfg.maxDeliveries hm t.cfg.ackWait v.fate
  rw [Nat.max_eq_left h1] at this
  refine ⟨?_, hgen.symm, rfl, rfl, rfl, fun c conn => ?_⟩
  · show GInv v.head _ _
    rw [hh]
    exact this
  · show mget [] c = some conn ↔ (c, conn) ∈ v.members
    rw [hmem]; simp

theorem join_rel {name : Str} {t : Topic} {v : View} {J : List (Str × Str)} (ht : TInv t) (hmd : 1 ≤ t.cfg.maxDeliveries)
    (h : Rel name t v J) (group conn c : Str) (hfresh : group = name → ∀ cn, (c, cn) ∉ J) :
    Rel name (t.join group conn c).1
      (if group = name then
        { (if v.known then v else v.obs t.cfg.maxDeliveries t.cfg.ackWait [.restarted v.head]) with
            known := true, members := (c, conn) :: v.members }
      else v)
      (if group = name then (c, conn) :: J else J)
    ∧ (group = name → ∃ g, GRel t.cfg g (if v.known then v else v.obs t.cfg.maxDeliveries t.cfg.ackWait [.restarted v.head])
        ∧ (t.join group conn c).2 = .joined g.floor c g.gen) := by
  have hcl : ∀ cn b, b ∈ (mget (t.join group conn c).1.clients cn).getD [] ↔
      b ∈ (mget t.clients cn).getD [] ∨ (cn = conn ∧ b = (group, c)) := by
    intro cn b
    simp only [Topic.join, mget_mset]
    by_cases hc : cn = conn
    · subst hc; rw [if_pos rfl]; simp
    · rw [if_neg hc]; simp [hc]
  by_cases hn : group = name
  · subst hn
    rw [if_pos rfl, if_pos rfl]
    have hfr := hfresh rfl
    -- the group before it gets its new member
    have hbase : ∃ g0, (mget t.groups group).getD t.newGroup = g0
        ∧ GRel t.cfg g0 (if v.known then v else v.obs t.cfg.maxDeliveries t.cfg.ackWait [.restarted v.head]) := by
      cases hg : mget t.groups group with
      | some g =>
        refine ⟨g, rfl, ?_⟩
        rw [if_pos (h.known_of hg)]
        exact h.grp g hg
      | none =>
        refine ⟨_, rfl, ?_⟩
        have hk : v.known = false := by rw [h.known]; simp [mhas, hg]
        rw [if_neg (by simp [hk])]
        exact newGroup_rel ht h.head hmd (h.unk hg).1 (h.unk hg).2
    obtain ⟨g0, hg0, hgr⟩ := hbase
    have hvh : (if v.known then v else v.obs t.cfg.maxDeliveries t.cfg.ackWait [.restarted v.head]).head = v.head := by
      split <;> rfl
    have hvn : (if v.known then v else v.obs t.cfg.maxDeliveries t.cfg.ackWait [.restarted v.head]).next = v.next := by
      split <;> rfl
    have hvm : (if v.known then v else v.obs t.cfg.maxDeliveries t.cfg.ackWait [.restarted v.head]).members = v.members := by
      split <;> rfl
    generalize (if v.known then v else v.obs t.cfg.maxDeliveries t.cfg.ackWait [.restarted v.head]) = w at *
    have hcm : g0.clampHead t.log.head = (g0, false) := by
      rw [← h.head, ← hvh]; exact hgr.clamped
    have hg1 : (t.join group conn c).1.groups = mset t.groups group (g0.addMember c conn) := by
      simp only [Topic.join, hg0, hcm]
    refine ⟨?_, fun _ => ⟨g0, hgr, by simp only [Topic.join, hg0, hcm]; rfl⟩⟩
    refine
      { next := hvn.trans h.next, head := hvh.trans h.head, known := ?_, grp := ?_, unk := ?_, bind := ?_, stale := ?_,
        uniq := ?_ }
    · simp [mhas, hg1, mget_mset]
    · intro g' hg'
      rw [hg1, mget_mset_same] at hg'
      cases hg'
      refine ⟨hgr.inv.addMember c conn, hgr.gen, hgr.mp, hgr.aw, hgr.md, fun c' cn => ?_⟩
      simp only [Group.addMember, mget_mset, List.mem_cons, Prod.mk.injEq]
      by_cases hc : c' = c
      · subst hc
        rw [if_pos rfl]
        have : (c', cn) ∉ v.members := fun hx => hfr cn (h.stale c' cn (h.bind c' cn hx))
        simp [this, eq_comm]
      · rw [if_neg hc, hgr.mem, hvm]; simp [hc]
    · rw [hg1, mget_mset_same]; intro x; cases x
    · intro c' cn hm
      rw [hcl]
      simp only [List.mem_cons, Prod.mk.injEq] at hm
      rcases hm with hm | hm
      · exact .inr ⟨hm.2, by rw [hm.1]⟩
      · exact .inl (h.bind c' cn hm)
    · intro c' cn hm
      rw [hcl] at hm
      simp only [List.mem_cons, Prod.mk.injEq]
      rcases hm with hm | hm
      · exact .inr (h.stale c' cn hm)
      · have := hm.2
        simp only [Prod.mk.injEq, true_and] at this
        exact .inl ⟨this, hm.1⟩
    · intro c' cn cn' h1 h2
      simp only [List.mem_cons, Prod.mk.injEq] at h1 h2
      rcases h1 with h1 | h1 <;> rcases h2 with h2 | h2
      · rw [h1.2, h2.2]
      · rw [h1.1] at h2; exact absurd h2 (hfr _)
      · rw [h2.1] at h1; exact absurd h1 (hfr _)
      · exact h.uniq c' cn cn' h1 h2
  · rw [if_neg hn, if_neg hn]
    have hn' : name ≠ group := fun e => hn e.symm
    have hg1 : mget (t.join group conn c).1.groups name = mget t.groups name := by
      simp only [Topic.join]; exact mget_mset_ne _ _ hn'
    refine ⟨?_, fun e => absurd e hn⟩
    refine
      { next := h.next, head := h.head, known := ?_, grp := ?_, unk := ?_, bind := ?_, stale := ?_, uniq := h.uniq }
    · rw [h.known]; unfold mhas; rw [hg1]
    · rw [hg1]; exact h.grp
    · rw [hg1]; exact h.unk
    · intro c' cn hm; rw [hcl]; exact .inl (h.bind c' cn hm)
    · intro c' cn hm
      rw [hcl] at hm
      rcases hm with hm | hm
      · exact h.stale c' cn hm
      · have := hm.2
        simp only [Prod.mk.injEq] at this
        exact absurd this.1 hn'

theorem ack_rel {name : Str} {t : Topic} {v : View} {J : List (Str × Str)} (h : Rel name t v J) (group c : Str)
    (gen s : Nat) :
    (∃ e, (t.ack group c gen s).2 = .err e ∧ Rel name (t.ack group c gen s).1 v J) ∨
    ((t.ack group c gen s).2 = .ok
      ∧ Rel name (t.ack group c gen s).1
        (if group = name then v.obs t.cfg.maxDeliveries t.cfg.ackWait [.acked s] else v) J) := by
  unfold Topic.ack
  cases hg : mget t.groups group with
  | none => exact .inl ⟨_, rfl, h⟩
  | some g =>
    simp only
    by_cases hn : group = name
    · subst hn
      have hgr := h.grp g hg
      have hk := h.known_of hg
      have hcl : g.clampHead t.log.head = (g, false) := by rw [← h.head]; exact hgr.clamped
      simp only [hcl]
      cases ha : (g.ack c gen s).2 with
      | some e =>
        left
        refine ⟨e, rfl, ?_⟩
        rw [ack_err ha]
        exact h.setGroup (v' := v) hgr h.next h.head rfl rfl rfl hk rfl
      | none =>
        right
        refine ⟨rfl, ?_⟩
        rw [if_pos trivial]
        obtain ⟨a1, a2⟩ := ack_spec hgr.inv t.cfg.ackWait ha
        refine h.setGroup (v' := v.obs t.cfg.maxDeliveries t.cfg.ackWait [.acked s]) (g' := (g.ack c gen s).1)
          ⟨?_, a2.gen.trans hgr.gen, a2.maxPending.trans hgr.mp, a2.ackWait.trans hgr.aw,
            a2.maxDeliveries.trans hgr.md, ?_⟩ h.next h.head rfl rfl rfl hk rfl
        · rw [hgr.md] at a1; exact a1
        · rw [a2.members]; exact hgr.mem
    · have hn' : name ≠ group := fun e => hn e.symm
      cases ha : ((g.clampHead t.log.head).1.ack c gen s).2 with
      | some e =>
        exact .inl ⟨e, rfl, h.frame rfl rfl (mget_mset_ne _ _ hn') rfl rfl⟩
      | none =>
        right
        refine ⟨rfl, ?_⟩
        rw [if_neg hn]
        exact h.frame rfl rfl (mget_mset_ne _ _ hn') rfl rfl

theorem seek_rel {name : Str} {t : Topic} {v : View} {J : List (Str × Str)} (ht : TInv t) (hmd : 1 ≤ t.cfg.maxDeliveries)
    (h : Rel name t v J) (group : Str) (toEnd : Bool) :
    Rel name (t.seek group toEnd).1
      (if group = name then
        { v.obs t.cfg.maxDeliveries t.cfg.ackWait [.restarted (if toEnd then v.next else v.head)] with
          known := true, gen := v.gen + 1, members := [] }
      else v) J := by
  by_cases hn : group = name
  · subst hn
    rw [if_pos rfl]
    have hbase : ((mget t.groups group).getD t.newGroup).gen = v.gen
        ∧ ((mget t.groups group).getD t.newGroup).maxPending = t.cfg.maxPending
        ∧ ((mget t.groups group).getD t.newGroup).ackWait = t.cfg.ackWait
        ∧ ((mget t.groups group).getD t.newGroup).maxDeliveries = t.cfg.maxDeliveries := by
      cases hg : mget t.groups group with
      | some g => exact ⟨(h.grp g hg).gen, (h.grp g hg).mp, (h.grp g hg).aw, (h.grp g hg).md⟩
      | none => exact ⟨(h.unk hg).1.symm, rfl, rfl, rfl⟩
    obtain ⟨b1, b2, b3, b4⟩ := hbase
    generalize hgg : (mget t.groups group).getD t.newGroup = g at *
    have h1 := ht.log.head1
    have h2 := ht.log.headNext
    have hnext := h.next
    have hhead := h.head
    have hm : 1 ≤ g.maxDeliveries := by rw [b4]; exact hmd
    have hg1 : (t.seek group toEnd).1.groups
        = mset t.groups group (if toEnd then g.seekEnd (t.log.next - 1) else g.seekBeginning t.log.head) := by
      simp only [Topic.seek, hgg]
    have hgr : GRel t.cfg (if toEnd then g.seekEnd (t.log.next - 1) else g.seekBeginning t.log.head)
        { v.obs t.cfg.maxDeliveries t.cfg.ackWait [.restarted (if toEnd then v.next else v.head)] with
          known := true, gen := v.gen + 1, members := [] } := by
      cases toEnd with
      | true =>
        simp only [if_true]
        have := seekEnd_inv g v.head (t.log.next - 1) (by omega) hm t.cfg.ackWait v.fate
        have e : t.log.next - 1 + 1 = v.next := by omega
        rw [e, b4] at this
        exact ⟨this, by show g.gen + 1 = _; rw [b1], b2, b3, b4, fun c conn => by simp [seekEnd, resetRuntime, invalidate]⟩
      | false =>
        simp only [if_neg (by simp : ¬ (false = true))]
        have := seekBeginning_inv g t.log.head hm t.cfg.ackWait v.fate
        rw [Nat.max_eq_left h1, b4, ← hhead] at this
        rw [← hhead]
        exact ⟨this, by show g.gen + 1 = _; rw [b1], b2, b3, b4, fun c conn => by
          simp [seekBeginning, resetRuntime, invalidate]⟩
    refine
      { next := h.next, head := h.head, known := ?_, grp := ?_, unk := ?_, bind := ?_, stale := h.stale, uniq := h.uniq }
    · simp [mhas, hg1, mget_mset]
    · intro g' hg'
      rw [hg1, mget_mset_same] at hg'
      cases hg'
      exact hgr
    · rw [hg1, mget_mset_same]; intro x; cases x
    · intro c cn hm; cases hm
  · rw [if_neg hn]
    exact h.frame rfl rfl (by simp only [Topic.seek]; exact mget_mset_ne _ _ (fun e => hn e.symm)) rfl rfl

theorem mget_map (m : List (Str × Group)) (f : Str → Group → Group) (k : Str) :
    mget (m.map (fun e => (e.1, f e.1 e.2))) k = (mget m k).map (f k) := by
  induction m with
  | nil => rfl
  | cons e t ih =>
    simp only [List.map_cons, mget_cons, ih]
    split
    · next h => rw [h]; rfl
    · rfl

theorem tick_rel {name : Str} {t : Topic} {v : View} {J : List (Str × Str)} (h : Rel name t v J) (now : Nat)
    (order : Str → List Nat) :
    Rel name (t.tick now order) (v.obs t.cfg.maxDeliveries t.cfg.ackWait [.tick now]) J := by
  have hg1 : mget (t.tick now order).groups name
      = (mget t.groups name).map (fun g => (g.checkRedelivery now (order name)).1) :=
    mget_map t.groups (fun n g => (g.checkRedelivery now (order n)).1) name
  refine
    { next := h.next, head := h.head, known := ?_, grp := ?_, unk := ?_, bind := h.bind, stale := h.stale, uniq := h.uniq }
  · show v.known = _
    rw [h.known]; unfold mhas; rw [hg1]; simp
  · intro g' hg'
    rw [hg1] at hg'
    cases hg : mget t.groups name with
    | none => rw [hg] at hg'; cases hg'
    | some g =>
      rw [hg] at hg'
      simp only [Option.map_some, Option.some.injEq] at hg'
      subst hg'
      have hgr := h.grp g hg
      obtain ⟨a1, a2⟩ := checkRedelivery_spec hgr.inv now (order name)
      rw [hgr.md, hgr.aw] at a1
      exact ⟨a1, a2.gen.trans hgr.gen, a2.maxPending.trans hgr.mp, a2.ackWait.trans hgr.aw,
        a2.maxDeliveries.trans hgr.md, by rw [a2.members]; exact hgr.mem⟩
  · intro hx
    rw [hg1] at hx
    exact h.unk (by cases hg : mget t.groups name with
      | none => rfl
      | some g => rw [hg] at hx; cases hx)

theorem retain_rel {name : Str} {t : Topic} {v : View} {J : List (Str × Str)} (ht : TInv t) (h : Rel name t v J)
    (hd : Nat) :
    Rel name (t.applyOutcome hd)
      { v.obs t.cfg.maxDeliveries t.cfg.ackWait [.removed (t.applyOutcome hd).log.head] with
        head := (t.applyOutcome hd).log.head } J := by
  have h1 := ht.log.head1
  have hclamp : ∀ g, GRel t.cfg g v → ∀ hd', 1 ≤ max hd' 1 →
      GRel t.cfg (g.clampHead hd').1
        { v.obs t.cfg.maxDeliveries t.cfg.ackWait [.removed (max hd' 1)] with head := max hd' 1 } := by
    intro g hgr hd' _
    have hi := hgr.inv.clampHead hd'
    obtain ⟨c1, c2, c3, c4, c5⟩ := clampHead_cfg g hd'
    refine ⟨?_, c2.trans hgr.gen, c3.trans hgr.mp, c4.trans hgr.aw, c5.trans hgr.md, by rw [c1]; exact hgr.mem⟩
    have e : fates t.cfg.maxDeliveries t.cfg.ackWait v.fate (.removed (max hd' 1))
        = fun s => if s < max hd' 1 then .removed else v.fate s := fates_removed _ _ _ _
    show GInv (max hd' 1) _ (fates t.cfg.maxDeliveries t.cfg.ackWait v.fate (.removed (max hd' 1)))
    rw [e]
    exact ⟨hi.core.of_max_one, hi.tight, hi.mem⟩
  unfold Topic.applyOutcome
  by_cases hne : hd ≠ t.log.head
  · rw [if_pos hne]
    have hg1 : mget (t.groups.map (fun e => (e.1, (e.2.clampHead hd).1))) name
        = (mget t.groups name).map (fun g => (g.clampHead hd).1) :=
      mget_map t.groups (fun _ g => (g.clampHead hd).1) name
    refine
      { next := h.next, head := rfl, known := ?_, grp := ?_, unk := ?_, bind := h.bind, stale := h.stale, uniq := h.uniq }
    · show v.known = _
      rw [h.known]; simp only [mhas]; rw [hg1]; simp
    · intro g' hg'
      simp only at hg'
      rw [hg1] at hg'
      cases hg : mget t.groups name with
      | none => rw [hg] at hg'; cases hg'
      | some g =>
        rw [hg] at hg'
        simp only [Option.map_some, Option.some.injEq] at hg'
        subst hg'
        exact hclamp g (h.grp g hg) hd (by omega)
    · intro hx
      simp only at hx
      rw [hg1] at hx
      exact h.unk (by cases hg : mget t.groups name with
        | none => rfl
        | some g => rw [hg] at hx; cases hx)
  · rw [if_neg hne]
    refine
      { next := h.next, head := rfl, known := h.known, grp := ?_, unk := h.unk, bind := h.bind, stale := h.stale,
        uniq := h.uniq }
    intro g hg
    have hgr := h.grp g hg
    have := hclamp g hgr t.log.head (by omega)
    rw [Nat.max_eq_left h1] at this
    have hcm : g.clampHead t.log.head = (g, false) := by rw [← h.head]; exact hgr.clamped
    rw [hcm] at this
    exact this

end Verif.Stream
