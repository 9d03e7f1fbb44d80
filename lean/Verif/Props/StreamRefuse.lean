import Verif.Props.Stream

/-!
# Who is refused, and how (C118)

Fetches, acknowledgements and departures name a consumer and the generation that the consumer was told when it joined.
-/

namespace Verif.Stream

open Group

/-- Why the observer of a group expects a request of consumer `c` that names generation `gen` to be refused: the group
does not exist; it has been sought since; the consumer is not a member.  `none`: it may go ahead. -/
def View.refusal (v : View) (c : Str) (gen : Nat) : Option GErr :=
  if v.known = false then some .groupNotFound
  else if gen ≠ v.gen then some .fenced
  else if v.members.any (fun m => decide (m.1 = c)) then none
  else some .notMember

/-- Fewer messages than the limit are delivered and unsettled. -/
def View.Room (v : View) (maxPending : Nat) : Prop :=
  ∀ L : List Nat, L.Nodup → (∀ s ∈ L, (v.fate s).isHeld = true) → L.length < maxPending

section

theorem Rel.refusal_none {name : Str} {t : Topic} {v : View} {J : List (Str × Str)} (h : Rel name t v J)
    (hg : mget t.groups name = none) (c : Str) (gen : Nat) : v.refusal c gen = some .groupNotFound := by
  have : v.known = false := by rw [h.known]; simp [mhas, hg]
  simp [View.refusal, this]

theorem Rel.refusal_some {name : Str} {t : Topic} {v : View} {J : List (Str × Str)} (h : Rel name t v J) {g : Group}
    (hg : mget t.groups name = some g) (c : Str) (gen : Nat) : v.refusal c gen = g.inactive c gen := by
  have hk : v.known = true := by rw [h.known]; simp [mhas, hg]
  have hgr := h.grp g hg
  unfold View.refusal Group.inactive
  rw [if_neg (by simp [hk]), hgr.gen]
  split
  · rfl
  · have : mhas g.members c = v.members.any (fun m => decide (m.1 = c)) := by
      rw [Bool.eq_iff_iff, hgr.mhas, List.any_eq_true]
      constructor
      · rintro ⟨conn, hc⟩; exact ⟨_, hc, by simp⟩
      · rintro ⟨⟨c', conn⟩, hc, he⟩
        have : c' = c := by simpa using he
        exact ⟨conn, this ▸ hc⟩
    rw [← this]
    cases mhas g.members c <;> simp

theorem Group.clampHead_inactive (g : Group) (head : Nat) (c : Str) (gen : Nat) :
    (g.clampHead head).1.inactive c gen = g.inactive c gen := by
  unfold Group.inactive
  have h : (g.clampHead head).1.gen = g.gen ∧ (g.clampHead head).1.members = g.members := by
    have := clampHead_cfg g head
    exact ⟨this.2.1, this.1⟩
  rw [h.1, h.2]

theorem tryFetch_error {t : Topic} {group c : Str} {gen limit now : Nat} {e : GErr}
    (h : (t.tryFetch group c gen limit now).2 = .error e) :
    (mget t.groups group = none ∧ e = .groupNotFound) ∨ ∃ g, mget t.groups group = some g ∧ g.inactive c gen = some e := by
  unfold Topic.tryFetch at h
  cases hg : mget t.groups group with
  | none => rw [hg] at h; cases h; exact .inl ⟨rfl, rfl⟩
  | some g =>
    rw [hg] at h
    simp only at h
    refine .inr ⟨g, rfl, ?_⟩
    split at h
    · cases h
    · unfold Group.fetch at h
      rw [Group.clampHead_inactive] at h
      have hc : (t.ask c now).consumer = c := rfl
      rw [hc] at h
      cases hi : g.inactive c gen with
      | none => rw [hi] at h; simp at h
      | some e' => rw [hi] at h; simp at h; rw [h]

theorem leave_out (t : Topic) (g c : Str) (gen : Nat) (order : List Nat) (q : Query) (r : Except GErr (List Msg)) :
    (t.leave g c gen order).2 ≠ .fetched q r := by
  unfold Topic.leave
  repeat' split
  all_goals simp

theorem GRel.roomy {cfg : Cfg} {g : Group} {v : View} (h : GRel cfg g v) :
    g.backpressured = false ↔ v.Room cfg.maxPending := by
  have hb : g.backpressured = false ↔ g.pending.length < cfg.maxPending := by
    unfold Group.backpressured
    rw [h.mp]
    simp
  rw [hb]
  constructor
  · intro hl L hL hh
    have : L.length ≤ (mkeys g.pending).length := by
      refine List.Nodup.length_le_of_subset hL (fun s hs => ?_)
      have := hh s hs
      cases hf : v.fate s with
      | held c a k =>
        have := (h.inv.core.held s c a k).1 hf
        exact mget_isSome.1 (by rw [this]; rfl)
      | _ => rw [hf] at this; cases this
    simp only [mkeys, List.length_map] at this
    omega
  · intro hr
    have hk := hr (mkeys g.pending) h.inv.core.wf (fun x hx => by
      obtain ⟨p, hp⟩ := Option.isSome_iff_exists.1 (mget_isSome.2 hx)
      have := (h.inv.core.held x p.consumer p.at_ p.count).2 (by rw [hp])
      rw [this]; rfl)
    simpa [mkeys] using hk

end

section

variable {crc : Bytes → Nat} {t : Topic} (hst : Started crc t) (name : Str)
include hst

/-- **C118**, departures: leaving is answered by the reason for which it is refused, if there is one. -/
theorem C118_leave (es : List Ev) (hnd : (joinIds name es).Nodup) (c : Str) (gen : Nat) (order : List Nat) :
    ((t.run crc es).step crc (.leave name c gen order)).2 =
      match (viewAfter crc t name es).refusal c gen with
      | some e => .err e
      | none => .ok := by
  obtain ⟨J, hr, _, _, _⟩ := hst.reach name es hnd
  simp only [Topic.step, Topic.leave]
  cases hg : mget (t.run crc es).groups name with
  | none => rw [hr.refusal_none hg]
  | some g =>
    rw [hr.refusal_some hg]
    unfold Group.inactive
    simp only
    by_cases h1 : gen = g.gen
    · rw [if_neg (by simp [h1]), if_neg (by simp [h1])]
      unfold Group.removeMember mhas
      cases hm : mget g.members c <;> simp
    · rw [if_pos (fun h => h1 h.symm), if_pos h1]

/-- **C118**, acknowledgements: the answer is the reason for which the consumer is refused; or, if it may go ahead,
whether it is the one that holds the message. -/
theorem C118_ack (es : List Ev) (hnd : (joinIds name es).Nodup) (c : Str) (gen s : Nat) :
    ((t.run crc es).step crc (.ack name c gen s)).2 =
      match (viewAfter crc t name es).refusal c gen with
      | some e => .err e
      | none =>
        match (viewAfter crc t name es).fate s with
        | .held c' _ _ => if c' = c then .ok else .err .notOwner
        | _ => .err .notPending := by
  obtain ⟨J, hr, _, _, _⟩ := hst.reach name es hnd
  simp only [Topic.step, Topic.ack]
  cases hg : mget (t.run crc es).groups name with
  | none => rw [hr.refusal_none hg]
  | some g =>
    have hgr := hr.grp g hg
    have hcl : g.clampHead (t.run crc es).log.head = (g, false) := by rw [← hr.head]; exact hgr.clamped
    rw [hr.refusal_some hg]
    simp only [hcl]
    unfold Group.ack
    cases hi : g.inactive c gen with
    | some e => rfl
    | none =>
      simp only
      cases hp : mget g.pending s with
      | none =>
        simp only
        cases hf : (viewAfter crc t name es).fate s with
        | held c' a k => rw [(hgr.inv.core.held s c' a k).1 hf] at hp; cases hp
        | _ => rfl
      | some p =>
        have hf := (hgr.inv.core.held s p.consumer p.at_ p.count).2 (by rw [hp])
        rw [hf]
        simp only
        by_cases h : p.consumer = c
        · rw [if_pos h, if_pos h]
        · rw [if_neg h, if_neg h]

/-- **C118**, fetches: whatever happens, a fetch is refused only for the reason that the observer knows, at the moment
of the answer.  In particular a member that names the current generation is never refused. -/
theorem C118_reason (es : List Ev) (hnd : (joinIds name es).Nodup) (e : Ev) (q : Query) (r : GErr) (hq : q.group = name)
    (h : ((t.run crc es).step crc e).2 = .fetched q (.error r)) :
    (viewAfter crc t name es).refusal q.consumer q.gen = some r := by
  obtain ⟨J, hr, _, _, _⟩ := hst.reach name es hnd
  cases e with
  | fetch group consumer gen limit poll =>
    simp only [Topic.step] at h
    cases hg : mget (t.run crc es).groups group with
    | none =>
      rw [hg] at h
      simp only [Out.fetched.injEq, Except.error.injEq] at h
      obtain ⟨rfl, rfl⟩ := h
      simp only at hq
      subst hq
      exact hr.refusal_none hg _ _
    | some g => rw [hg] at h; cases h
  | attempt id now =>
    simp only [Topic.step] at h
    unfold Topic.attempt at h
    cases hop : mget (t.run crc es).fetches id with
    | none => rw [hop] at h; cases h
    | some op =>
      rw [hop] at h
      simp only at h
      split at h
      · cases h
      · cases hr' : ((t.run crc es).tryFetch op.group op.consumer op.gen op.limit now).2 with
        | error e =>
          rw [hr'] at h
          simp only [Topic.endFetch, Out.fetched.injEq] at h
          obtain ⟨rfl, h⟩ := h
          have hn : op.group = name := hq
          have he : e = r := by
            split at h
            · cases h
            · exact Except.error.inj h
          subst he
          rcases tryFetch_error hr' with ⟨hg, rfl⟩ | ⟨g, hg, hi⟩
          · rw [hn] at hg; exact hr.refusal_none hg _ _
          · rw [hn] at hg; rw [hr.refusal_some hg]; exact hi
        | ok a =>
          rw [hr'] at h
          cases a with
          | ready ms => simp [Topic.endFetch] at h
          | needCold f => simp at h
          | wait =>
            simp only at h
            split at h
            · cases h
            · simp [Topic.endFetch] at h
  | finish id now =>
    simp only [Topic.step] at h
    cases hop : mget (t.run crc es).fetches id with
    | none => rw [hop] at h; cases h
    | some op =>
      rw [hop] at h
      simp only at h
      split at h
      · rename_i msgs hph
        revert h
        unfold Topic.finishCold
        cases hg : mget (t.run crc es).groups op.group with
        | none =>
          simp only [Topic.endFetch]
          intro h
          simp only [Out.fetched.injEq, Except.error.injEq] at h
          obtain ⟨rfl, rfl⟩ := h
          have hn : op.group = name := hq
          rw [hn] at hg
          exact hr.refusal_none hg _ _
        | some g =>
          simp only
          split
          · intro h; simp [Topic.endFetch] at h
          · unfold Group.registerCold
            rw [Group.clampHead_inactive]
            have hi' : ({ g with fetchingCold := false } : Group).inactive op.consumer op.gen
                = g.inactive op.consumer op.gen := rfl
            rw [hi']
            cases hi : g.inactive op.consumer op.gen with
            | none => intro h; simp [Topic.endFetch] at h
            | some e =>
              simp only [Topic.endFetch]
              intro h
              simp only [Out.fetched.injEq, Except.error.injEq] at h
              obtain ⟨rfl, rfl⟩ := h
              have hn : op.group = name := hq
              rw [hn] at hg
              rw [hr.refusal_some hg]
              exact hi
      · cases h
  | giveUp id =>
    simp only [Topic.step] at h
    split at h
    · cases h
    · split at h
      · simp [Topic.endFetch] at h
      · cases h
  | join g conn c => simp [Topic.step, Topic.join] at h
  | leave g c gen order =>
    exact absurd h (leave_out _ _ _ _ _ _ _)
  | ack g c gen s =>
    simp only [Topic.step, Topic.ack] at h
    repeat' split at h
    all_goals cases h
  | retainDone =>
    simp only [Topic.step] at h
    split at h <;> cases h
  | read a b =>
    simp only [Topic.step, Topic.startRead] at h
    split at h <;> cases h
  | _ =>
    simp only [Topic.step] at h
    repeat' split at h
    all_goals cases h

/-- **C118**, fetches: a fetch in progress that should be refused is refused, with the reason, the next time it looks
for messages, provided fewer messages than the limit are delivered and unsettled; only a fetch that was prepared to
wait, by a consumer that is not a member, gets an empty answer instead.  A refusal changes no group and nothing else. -/
theorem C118_told_partial (es : List Ev) (hnd : (joinIds name es).Nodup) (id now : Nat) (op : FetchOp)
    (hop : mget (t.run crc es).fetches id = some op) (hph : op.phase = .ready ∨ op.phase = .waiting)
    (hn : op.group = name) (hroom : (viewAfter crc t name es).Room t.cfg.maxPending) (r : GErr)
    (h : (viewAfter crc t name es).refusal op.consumer op.gen = some r) :
    ((t.run crc es).step crc (.attempt id now)).2 =
        .fetched op.query (if op.poll = true ∧ r = .notMember then .ok [] else .error r)
    ∧ (∀ n, mget ((t.run crc es).step crc (.attempt id now)).1.groups n = mget (t.run crc es).groups n)
    ∧ ∃ gs fs, ((t.run crc es).step crc (.attempt id now)).1 = { t.run crc es with groups := gs, fetches := fs } := by
  obtain ⟨J, hr, _, hcfg, _⟩ := hst.reach name es hnd
  simp only [Topic.step]
  unfold Topic.attempt
  rw [hop]
  simp only
  rw [if_neg (by rcases hph with h | h <;> simp [h])]
  subst hn
  unfold Topic.tryFetch
  cases hg : mget (t.run crc es).groups op.group with
  | none =>
    rw [hr.refusal_none hg] at h
    cases h
    exact ⟨by simp [Topic.endFetch], fun _ => rfl, _, _, rfl⟩
  | some g =>
    have hgr := hr.grp g hg
    have hcl : g.clampHead (t.run crc es).log.head = (g, false) := by rw [← hr.head]; exact hgr.clamped
    rw [hr.refusal_some hg] at h
    have hb := hgr.roomy.2 (by rw [hcfg]; exact hroom)
    have h' : g.inactive (Topic.ask (t.run crc es) op.consumer now).consumer op.gen = some r := h
    simp only [hcl, hb, Group.fetch, h', Topic.endFetch]
    refine ⟨by simp, fun n => ?_, _, _, rfl⟩
    simp only [Bool.false_eq_true, if_false]
    by_cases hn : n = op.group
    · subst hn; rw [mget_mset_same, hg]
    · rw [mget_mset_ne _ _ hn]

/-- **C118**, the exception: while as many messages as the limit are delivered and unsettled, a fetch gets an empty answer
at once, whoever asks. -/
theorem C118_full (es : List Ev) (hnd : (joinIds name es).Nodup) (id now : Nat) (op : FetchOp)
    (hop : mget (t.run crc es).fetches id = some op) (hph : op.phase = .ready ∨ op.phase = .waiting)
    (hn : op.group = name) (hk : (viewAfter crc t name es).known = true)
    (hroom : ¬ (viewAfter crc t name es).Room t.cfg.maxPending) :
    ((t.run crc es).step crc (.attempt id now)).2 = .fetched op.query (.ok []) := by
  obtain ⟨J, hr, _, hcfg, _⟩ := hst.reach name es hnd
  simp only [Topic.step]
  unfold Topic.attempt
  rw [hop]
  simp only
  rw [if_neg (by rcases hph with h | h <;> simp [h])]
  subst hn
  unfold Topic.tryFetch
  cases hg : mget (t.run crc es).groups op.group with
  | none => rw [hr.known] at hk; simp [mhas, hg] at hk
  | some g =>
    have hgr := hr.grp g hg
    have hcl : g.clampHead (t.run crc es).log.head = (g, false) := by rw [← hr.head]; exact hgr.clamped
    have hb : g.backpressured = true := by
      cases h : g.backpressured with
      | true => rfl
      | false => exact absurd (by rw [← hcfg]; exact hgr.roomy.1 h) hroom
    simp [hcl, hb, Topic.endFetch]

end

namespace Ex

/-- A consumer has joined; the group is sought; another consumer joins; three messages are published.  The first consumer
asks without knowing of the seek. -/
def esSought : List Ev :=
  [.join g k1 c1, .seek g false, .join g k2 c2, .publish 5 [1], .send 0, .publish 5 [2], .send 0, .publish 5 [3], .send 0,
   .fetch g c1 1 2 true]

/-- The second consumer has taken as many messages as may be unsettled. -/
def esFull : List Ev := esSought ++ [.fetch g c2 2 5 false, .attempt 1 100]

end Ex

/-- **C118 does not hold**: a consumer that names an outdated generation gets an empty answer, as if there were nothing to
fetch, while the messages of the group that are delivered and unsettled reach the limit. -/
theorem C118_violated :
    (viewAfter Ex.crc Ex.t0 Ex.g Ex.esFull).refusal Ex.c1 1 = some .fenced
    ∧ ((Ex.t0.run Ex.crc Ex.esFull).step Ex.crc (.attempt 0 101)).2 matches .fetched ⟨_, _, 1, 2⟩ (.ok []) := by decide

/-! The hypotheses can be met; the answers are as announced. -/

example : mget (Ex.t0.run Ex.crc Ex.esSought).fetches 0 = some ⟨Ex.g, Ex.c1, 1, 2, true, 1, .ready⟩
    ∧ (viewAfter Ex.crc Ex.t0 Ex.g Ex.esSought).refusal Ex.c1 1 = some .fenced
    ∧ (viewAfter Ex.crc Ex.t0 Ex.g Ex.esSought).refusal Ex.c1 2 = some .notMember
    ∧ (viewAfter Ex.crc Ex.t0 Ex.g Ex.esSought).refusal Ex.c2 2 = none
    ∧ ((Ex.t0.run Ex.crc Ex.esSought).step Ex.crc (.attempt 0 101)).2 matches .fetched ⟨_, _, 1, 2⟩ (.error .fenced) := by
  decide

example : (joinIds Ex.g Ex.esSought).Nodup ∧ (joinIds Ex.g Ex.esFull).Nodup := by decide

example : (viewAfter Ex.crc Ex.t0 Ex.g Ex.esSought).Room Ex.t0.cfg.maxPending := by
  obtain ⟨J, hr, _, hcfg, _⟩ := Ex.started.reach Ex.g Ex.esSought (by decide)
  cases hg : mget (Ex.t0.run Ex.crc Ex.esSought).groups Ex.g with
  | none => exact absurd hg (by decide)
  | some g =>
    have := (hr.grp g hg).roomy.1 (by
      have : (mget (Ex.t0.run Ex.crc Ex.esSought).groups Ex.g).map (·.backpressured) = some false := by decide
      rw [hg] at this
      simpa using this)
    rw [hcfg] at this
    exact this

example : ((Ex.t0.run Ex.crc (Ex.esSought ++ [.fetch Ex.g Ex.c1 2 2 true])).step Ex.crc (.attempt 1 101)).2
      matches .fetched ⟨_, _, 2, 2⟩ (.ok [])
    ∧ ((Ex.t0.run Ex.crc (Ex.esSought ++ [.fetch Ex.g Ex.c1 2 2 false])).step Ex.crc (.attempt 1 101)).2
      matches .fetched ⟨_, _, 2, 2⟩ (.error .notMember)
    ∧ ((Ex.t0.run Ex.crc (Ex.esSought)).step Ex.crc (.leave Ex.g Ex.c1 1 [])).2 matches .err .fenced
    ∧ ((Ex.t0.run Ex.crc Ex.esFull).step Ex.crc (.ack Ex.g Ex.c2 2 1)).2 matches .ok
    ∧ ((Ex.t0.run Ex.crc Ex.esFull).step Ex.crc (.ack Ex.g Ex.c2 2 4)).2 matches .err .notPending := by decide

end Verif.Stream
