import Verif.Proofs.StreamDesk
import Verif.Props.StreamGroups

/-!
# Lemmas about streams as one sequential object: the observer of a group and the answers
-/

namespace Verif.Rpc

open Verif Verif.Wire Verif.Sdk
open Verif.Stream (Topic GErr Query Msg FetchOp SCmd View Rel GRel)

/-! ### Why a request is refused -/

/-- The reason follows from what the observer of the group knows. -/
structure Refused (v : View) (c : Str) (gen : Nat) (e : GErr) : Prop where
  unknown : e = .groupNotFound → v.known = false
  fenced : e = .fenced → v.known = true ∧ gen ≠ v.gen
  stranger : e = .notMember → v.known = true ∧ gen = v.gen ∧ ¬ ∃ conn, (c, conn) ∈ v.members

theorem _root_.Verif.Stream.Rel.unknown {g : Str} {t : Topic} {v : View} {J : List (Str × Str)} (h : Rel g t v J) (hg : mget t.groups g = none) : v.known = false := by
  rw [h.known]; simp [mhas, hg]

/-- `ensure_active_consumer`, seen by the observer. -/
theorem inactive_reason {cfg : Stream.Cfg} {g : Stream.Group} {v : View} (h : GRel cfg g v) (hk : v.known = true) {c : Str} {gen : Nat} {e : GErr}
    (hi : g.inactive c gen = some e) : (e = .fenced ∨ e = .notMember) ∧ Refused v c gen e := by
  unfold Stream.Group.inactive at hi
  split at hi
  · next hg =>
    injection hi with hi
    subst hi
    exact ⟨.inl rfl, (fun h => by cases h), fun _ => ⟨hk, by rw [← h.gen]; exact hg⟩, (fun h => by cases h)⟩
  · next hg =>
    split at hi
    · next hm =>
      injection hi with hi
      subst hi
      refine ⟨.inr rfl, (fun h => by cases h), (fun h => by cases h), fun _ => ⟨hk, ?_, ?_⟩⟩
      · rw [← h.gen]; exact Classical.not_not.1 hg
      · intro hx
        rw [h.mhas.2 hx] at hm
        cases hm
    · cases hi

theorem inactive_none_of {cfg : Stream.Cfg} {g : Stream.Group} {v : View} (h : GRel cfg g v) {c : Str} {gen : Nat}
    (hi : g.inactive c gen = none) : gen = v.gen ∧ ∃ conn, (c, conn) ∈ v.members := by
  obtain ⟨h1, h2⟩ := Stream.inactive_none hi
  exact ⟨by rw [← h.gen]; exact h1, h.mhas.1 h2⟩

/-- Acknowledging. -/
theorem ack_answer {g : Str} {t : Topic} {v : View} {J : List (Str × Str)} (h : Rel g t v J) (c : Str) (gen s : Nat) :
    (∃ e, (t.ack g c gen s).2 = .err e ∧ (e = .groupNotFound ∨ e = .fenced ∨ e = .notMember) ∧ Refused v c gen e) ∨
    (v.known = true ∧ gen = v.gen ∧ (∃ conn, (c, conn) ∈ v.members) ∧
      (((t.ack g c gen s).2 = .err .notPending ∧ ∀ c' at_ k, v.fate s ≠ .held c' at_ k) ∨
       ((t.ack g c gen s).2 = .err .notOwner ∧ ∃ c' at_ k, v.fate s = .held c' at_ k ∧ c' ≠ c) ∨
       ((t.ack g c gen s).2 = .ok ∧ ∃ at_ k, v.fate s = .held c at_ k))) := by
  unfold Topic.ack
  cases hg : mget t.groups g with
  | none => exact .inl ⟨_, rfl, .inl rfl, fun _ => h.unknown hg, (fun h => by cases h), (fun h => by cases h)⟩
  | some gr =>
    have hgr := h.grp gr hg
    have hk := h.known_of hg
    have hcl : gr.clampHead t.log.head = (gr, false) := by rw [← h.head]; exact hgr.clamped
    simp only [hcl]
    cases hi : gr.inactive c gen with
    | some e =>
      obtain ⟨h1, h2⟩ := inactive_reason hgr hk hi
      refine .inl ⟨e, ?_, .inr h1, h2⟩
      simp [Stream.Group.ack, hi]
    | none =>
      obtain ⟨h1, h2⟩ := inactive_none_of hgr hi
      refine .inr ⟨hk, h1, h2, ?_⟩
      cases hp : mget gr.pending s with
      | none =>
        left
        refine ⟨by simp [Stream.Group.ack, hi, hp], fun c' at_ k hf => ?_⟩
        rw [(hgr.inv.core.held s c' at_ k).1 hf] at hp
        cases hp
      | some p =>
        have hf := (hgr.inv.core.held s p.consumer p.at_ p.count).2 hp
        by_cases hc : p.consumer = c
        · right; right
          refine ⟨by simp [Stream.Group.ack, hi, hp, hc], p.at_, p.count, ?_⟩
          rw [← hc]; exact hf
        · right; left
          exact ⟨by simp [Stream.Group.ack, hi, hp, hc], p.consumer, p.at_, p.count, hf, hc⟩

/-- Leaving. -/
theorem leave_answer {g : Str} {t : Topic} {v : View} {J : List (Str × Str)} (h : Rel g t v J) (c : Str) (gen : Nat) (order : List Nat) :
    (∃ e, (t.leave g c gen order).2 = .err e ∧ (e = .groupNotFound ∨ e = .fenced ∨ e = .notMember) ∧ Refused v c gen e) ∨
    ((t.leave g c gen order).2 = .ok ∧ v.known = true ∧ gen = v.gen ∧ ∃ conn, (c, conn) ∈ v.members) := by
  unfold Topic.leave
  cases hg : mget t.groups g with
  | none => exact .inl ⟨_, rfl, .inl rfl, fun _ => h.unknown hg, (fun h => by cases h), (fun h => by cases h)⟩
  | some gr =>
    have hgr := h.grp gr hg
    have hk := h.known_of hg
    by_cases hgen : gr.gen = gen
    · dsimp only
      rw [if_neg (by simpa using hgen)]
      unfold Stream.Group.removeMember
      cases hm : mget gr.members c with
      | none =>
        refine .inl ⟨_, rfl, .inr (.inr rfl), (fun h => by cases h), (fun h => by cases h), fun _ => ⟨hk, by rw [← hgr.gen]; exact hgen.symm, ?_⟩⟩
        rintro ⟨conn, hx⟩
        rw [(hgr.mem c conn).2 hx] at hm
        cases hm
      | some conn => exact .inr ⟨rfl, hk, by rw [← hgr.gen]; exact hgen.symm, conn, (hgr.mem c conn).1 hm⟩
    · dsimp only
      rw [if_pos hgen]
      exact .inl ⟨_, rfl, .inr (.inl rfl), (fun h => by cases h), fun _ => ⟨hk, by rw [← hgr.gen]; exact Ne.symm hgen⟩, (fun h => by cases h)⟩

/-- An attempt to fetch. -/
theorem tryFetch_reason {g : Str} {t : Topic} {v : View} {J : List (Str × Str)} (h : Rel g t v J) {c : Str} {gen lim now : Nat} {e : GErr}
    (he : (t.tryFetch g c gen lim now).2 = .error e) : (e = .groupNotFound ∨ e = .fenced ∨ e = .notMember) ∧ Refused v c gen e := by
  unfold Topic.tryFetch at he
  cases hg : mget t.groups g with
  | none =>
    rw [hg] at he
    injection he with he
    subst he
    exact ⟨.inl rfl, fun _ => h.unknown hg, (fun h => by cases h), (fun h => by cases h)⟩
  | some gr =>
    have hgr := h.grp gr hg
    have hk := h.known_of hg
    have hcl : gr.clampHead t.log.head = (gr, false) := by rw [← h.head]; exact hgr.clamped
    simp only [hg, hcl] at he
    split at he
    · cases he
    · cases hi : gr.inactive c gen with
      | some e' =>
        have hf : gr.fetch (t.ask c now) gen lim = (gr, .error e') := by simp [Stream.Group.fetch, Topic.ask, hi]
        simp only [hf] at he
        injection he with he
        subst he
        obtain ⟨h1, h2⟩ := inactive_reason hgr hk hi
        exact ⟨.inr h1, h2⟩
      | none =>
        have hf : ∃ ms, (gr.fetch (t.ask c now) gen lim).2 = .ok ms := by simp [Stream.Group.fetch, Topic.ask, hi]
        obtain ⟨ms, hf⟩ := hf
        simp only [hf] at he
        cases he

/-- The end of a fetch from the files. -/
theorem finishCold_reason {t : Topic} {v : View} {J : List (Str × Str)} {op : FetchOp} (h : Rel op.group t v J) {ms : List Msg} {now : Nat} {e : GErr}
    (he : (t.finishCold op ms now).2 = .error e) : (e = .groupNotFound ∨ e = .fenced ∨ e = .notMember) ∧ Refused v op.consumer op.gen e := by
  unfold Topic.finishCold at he
  cases hg : mget t.groups op.group with
  | none =>
    rw [hg] at he
    injection he with he
    subst he
    exact ⟨.inl rfl, fun _ => h.unknown hg, (fun h => by cases h), (fun h => by cases h)⟩
  | some gr =>
    have hgr := (h.grp gr hg).cold false
    have hk := h.known_of hg
    have hcl : ({ gr with fetchingCold := false } : Stream.Group).clampHead t.log.head = ({ gr with fetchingCold := false }, false) := by
      rw [← h.head]; exact hgr.clamped
    simp only [hg, hcl] at he
    split at he
    · cases he
    · cases hi : ({ gr with fetchingCold := false } : Stream.Group).inactive op.consumer op.gen with
      | some e' =>
        simp only [Stream.Group.registerCold, hi] at he
        injection he with he
        subst he
        obtain ⟨h1, h2⟩ := inactive_reason hgr hk hi
        exact ⟨.inr h1, h2⟩
      | none =>
        simp only [Stream.Group.registerCold, hi] at he
        cases he

/-- A fetch that is refused. -/
theorem fetch_reason {g : Str} {t : Topic} {v : View} {J : List (Str × Str)} (h : Rel g t v J) {crc : Bytes → Nat} {x : Stream.Ev} {q : Query} {e : GErr}
    (hq : q.group = g) (ho : (t.step crc x).2 = .fetched q (.error e)) :
    (e = .groupNotFound ∨ e = .fenced ∨ e = .notMember) ∧ Refused v q.consumer q.gen e := by
  cases x with
  | fetch g' c gen lim poll =>
    simp only [Topic.step] at ho
    split at ho
    · next hn =>
      injection ho with h1 h2
      injection h2 with h2
      subst h1 h2 hq
      exact ⟨.inl rfl, fun _ => h.unknown hn, (fun h => by cases h), (fun h => by cases h)⟩
    · cases ho
  | attempt id now =>
    simp only [Topic.step, Topic.attempt] at ho
    split at ho
    · cases ho
    · next op hop =>
      split at ho
      · cases ho
      · split at ho
        · next e' he' =>
          simp only [Topic.endFetch] at ho
          injection ho with h1 h2
          split at h2
          · cases h2
          · injection h2 with h2
            subst h1 h2
            simp only [FetchOp.query] at hq
            subst hq
            exact tryFetch_reason h he'
        · simp only [Topic.endFetch] at ho
          injection ho with _ h2
          cases h2
        · cases ho
        · split at ho
          · cases ho
          · simp only [Topic.endFetch] at ho
            injection ho with _ h2
            cases h2
  | finish id now =>
    simp only [Topic.step] at ho
    split at ho
    · cases ho
    · next op hop =>
      split at ho
      · next ms hms =>
        simp only [Topic.endFetch] at ho
        injection ho with h1 h2
        subst h1
        simp only [FetchOp.query] at hq
        subst hq
        exact finishCold_reason h h2
      · cases ho
  | giveUp id =>
    simp only [Topic.step] at ho
    split at ho
    · cases ho
    · split at ho
      · simp only [Topic.endFetch] at ho
        injection ho with _ h2
        cases h2
      · cases ho
  | publish => simp [Topic.step] at ho
  | send i => simp only [Topic.step] at ho; split at ho <;> cases ho
  | join => simp only [Topic.step] at ho; cases ho
  | leave =>
    simp only [Topic.step, Topic.leave] at ho
    repeat' split at ho
    all_goals cases ho
  | disconnect => simp [Topic.step] at ho
  | abort => simp [Topic.step] at ho
  | ack =>
    simp only [Topic.step, Topic.ack] at ho
    repeat' split at ho
    all_goals cases ho
  | seek => simp only [Topic.step] at ho; cases ho
  | tick => simp [Topic.step] at ho
  | evictLoad => simp [Topic.step] at ho
  | evictRun => simp only [Topic.step] at ho; split at ho <;> cases ho
  | save => simp [Topic.step] at ho
  | retainSend => simp only [Topic.step] at ho; split at ho <;> cases ho
  | retainDone => simp only [Topic.step] at ho; split at ho <;> cases ho
  | read => simp only [Topic.step, Topic.startRead] at ho; split at ho <;> cases ho
  | readDone => simp only [Topic.step] at ho; split at ho <;> cases ho
  | storage => simp only [Topic.step] at ho; split at ho <;> cases ho
  | flush => simp [Topic.step] at ho
  | leak => simp [Topic.step] at ho
  | closeHandle => simp [Topic.step] at ho

end Verif.Rpc
