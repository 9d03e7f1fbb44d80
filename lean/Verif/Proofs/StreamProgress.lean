import Verif.Proofs.StreamRead
import Verif.Proofs.StreamTrace

/-!
# Progress of fetches
-/

namespace Verif.Stream

open Group

/-! ### The group -/

/-- The number of the message that a group delivers next. -/
def Group.due (g : Group) : Nat := g.redeliver.head?.getD g.next

theorem GCore.due_ge {head : Nat} {g : Group} {F : Nat → Fate} (h : GCore head g F) : max head 1 ≤ g.due := by
  unfold Group.due
  cases hr : g.redeliver with
  | nil => exact h.headNext
  | cons s q => exact h.belowRed s (by rw [hr]; exact List.mem_cons_self)

theorem GCore.nextFetch {head : Nat} {g : Group} {F : Nat → Fate} (h : GCore head g F) : g.nextFetchSeq head = g.due := by
  have := h.due_ge
  unfold nextFetchSeq
  unfold Group.due at *
  omega

theorem GCore.due_owed {head : Nat} {g : Group} {F : Nat → Fate} (h : GCore head g F) :
    F g.due = .fresh ∨ ∃ k, F g.due = .waiting k := by
  unfold Group.due
  cases hr : g.redeliver with
  | nil => exact .inl ((h.fresh _).2 (Nat.le_refl _))
  | cons s q =>
    have hm : s ∈ g.redeliver := by rw [hr]; exact List.mem_cons_self
    obtain ⟨k, hk⟩ := h.redAtt s hm
    exact .inr ⟨k, (h.waiting s k).2 ⟨hm, hk⟩⟩

/-- From memory: something, or the group is as before and the message that is due is not in memory. -/
theorem deliver_due {head : Nat} {a : Ask} (hh : a.head = head) (hw : WindowOk a.log a.ramStart) (g : Group)
    (F : Nat → Fate) (limit : Nat) (h : GInv head g F) (hcm : mhas g.members a.consumer = true) (hl : 0 < limit)
    (hb : g.pending.length < g.maxPending) :
    (deliver g a limit).2 ≠ [] ∨ (deliver g a limit = (g, []) ∧ readFromLog a.log a.ramStart g.due = none) := by
  unfold deliver
  rw [if_neg (by omega)]
  generalize hbud : min limit (g.maxPending - g.pending.length) = budget
  have hbpos : 0 < budget := by omega
  have hnh : ¬ g.next < a.head := by have := h.core.headNext; omega
  have hmax : max g.next a.head = g.next := by omega
  have hskip : skipRemoved g a.head = g := by unfold skipRemoved; rw [if_neg hnh]
  -- the second loop when nothing has been delivered yet
  have hfresh : (freshLoop a budget (a.log.length + 1) g []).2 ≠ []
      ∨ freshLoop a budget (a.log.length + 1) g [] = (g, []) ∧ readFromLog a.log a.ramStart g.next = none := by
    cases hr : readFromLog a.log a.ramStart g.next with
    | none =>
      right
      refine ⟨?_, rfl⟩
      unfold freshLoop
      rw [if_pos (by simpa using hbpos), hmax, hr, hskip]
    | some m =>
      left
      obtain ⟨e1, _, e3⟩ := readFromLog_seq hw hr
      obtain ⟨i1, i2⟩ := Delivered.one (wait := 0) (now := a.now) h hcm (g := { g with next := g.next + 1 })
        (m := m) (.inl ⟨by rw [e1]; exact (h.core.fresh _).2 (Nat.le_refl _), e1, by rw [e1]⟩) hb
      unfold freshLoop
      rw [if_pos (by simpa using hbpos), hmax, hr, hskip]
      simp only
      rw [i1]
      obtain ⟨ms, j1, _⟩ := freshLoop_spec (wait := 0) (p0 := g.pending.length) (budget := budget) hh hw a.log.length
        (hand { g with next := g.next + 1 } a.consumer a.now m.seq) _ ([] ++ [m]) i2.inv (by rw [i2.same.members]; exact hcm)
        (by rw [i2.count]; simp) (by rw [i2.same.maxPending]; omega)
      simp only [Option.toList_some]
      rw [j1]
      simp
  unfold Group.due
  cases hq : g.redeliver with
  | nil => simpa [redeliverLoop] using hfresh
  | cons s q =>
    have hsmem : s ∈ g.redeliver := by rw [hq]; exact List.mem_cons_self
    have hsh : ¬ s < a.head := by have := h.core.belowRed s hsmem; omega
    cases hr : readFromLog a.log a.ramStart s with
    | none =>
      have : redeliverLoop a budget (s :: q) g [] = (g, []) := by
        unfold redeliverLoop
        rw [if_pos (by simpa using hbpos), if_neg hsh, hr]
      rw [this]
      rcases hfresh with h1 | h1
      · exact .inl h1
      · exact .inr ⟨h1.1, hr⟩
    | some m =>
      left
      obtain ⟨e1, _, e3⟩ := readFromLog_seq hw hr
      obtain ⟨k, hk⟩ := h.core.redAtt s hsmem
      have hF : F m.seq = .waiting k := by rw [e1]; exact (h.core.waiting s k).2 ⟨hsmem, hk⟩
      have herase : ({ g with redeliver := q } : Group) = { g with redeliver := g.redeliver.erase m.seq } := by
        rw [hq, e1, List.erase_cons_head]
      obtain ⟨i1, i2⟩ := Delivered.one (wait := 0) (now := a.now) h hcm (g := { g with redeliver := q })
        (.inr ⟨⟨k, hF⟩, herase⟩) hb
      have hstep : redeliverLoop a budget (s :: q) g [] = redeliverLoop a budget q (hand { g with redeliver := q } a.consumer a.now m.seq) [m] := by
        conv => lhs; unfold redeliverLoop
        rw [if_pos (by simpa using hbpos), if_neg hsh, hr]
        simp only
        rw [i1]
        rfl
      rw [hstep]
      obtain ⟨ms, j1, j2, _⟩ := redeliverLoop_spec (wait := 0) (p0 := g.pending.length) (budget := budget) hh hw q
        (hand { g with redeliver := q } a.consumer a.now m.seq) _ [m] i2.inv (by simp [hand]) (by rw [i2.same.members]; exact hcm)
        (by rw [i2.count]) (by rw [i2.same.maxPending]; omega)
      rw [j1]
      obtain ⟨ms2, k1, _⟩ := freshLoop_spec (wait := 0) (p0 := g.pending.length) (budget := budget) hh hw (a.log.length + 1)
        _ _ ([m] ++ ms) j2.inv (by rw [j2.same.members, i2.same.members]; exact hcm)
        (by rw [j2.count, i2.count, List.length_append]; simp; omega) (by rw [j2.same.maxPending, i2.same.maxPending]; omega)
      rw [k1]
      simp

/-- From disk: an answer that starts with the message that is due. -/
theorem coldLoop_due {head : Nat} {c : Str} {now : Nat} (m : Msg) (msgs : List Msg) (g : Group) (F : Nat → Fate)
    (h : GInv head g F) (hcm : mhas g.members c = true) (hb : g.pending.length < g.maxPending) (hm : m.seq = g.due) :
    (Group.coldLoop c now head (m :: msgs) g []).2 ≠ [] := by
  have hge := h.core.due_ge
  have hmax : max g.next (max head 1) = g.next := by have := h.core.headNext; omega
  have hnh : ¬ g.next < head := by have := h.core.headNext; omega
  have hcond : m.seq ∈ g.redeliver ∨ m.seq = g.next := by
    rw [hm]; unfold Group.due
    cases hr : g.redeliver with
    | nil => exact .inr rfl
    | cons s q => exact .inl List.mem_cons_self
  have key : issue (coldReady { g with redeliver := g.redeliver.erase m.seq } head m.seq) c now m
        = (hand (coldReady { g with redeliver := g.redeliver.erase m.seq } head m.seq) c now m.seq, some m)
      ∧ Delivered 0 c now head g F
        (hand (coldReady { g with redeliver := g.redeliver.erase m.seq } head m.seq) c now m.seq) [m] := by
    by_cases hf : m.seq = g.next
    · have hF : F m.seq = .fresh := (h.core.fresh _).2 (by omega)
      have hnot : m.seq ∉ g.redeliver := by
        intro hm
        obtain ⟨k, hk⟩ := h.core.redAtt _ hm
        have := (h.core.waiting _ k).2 ⟨hm, hk⟩
        rw [hF] at this; cases this
      have : coldReady { g with redeliver := g.redeliver.erase m.seq } head m.seq
          = { g with next := m.seq + 1 } := by
        unfold coldReady skipRemoved
        rw [List.erase_of_not_mem hnot]
        simp only [hmax, if_pos hf, if_neg hnh]
      rw [this]
      exact Delivered.one h hcm (.inl ⟨hF, hf, rfl⟩) (by omega)
    · have hm : m.seq ∈ g.redeliver := by
        rcases hcond with hm | hm
        · exact hm
        · exact absurd hm hf
      obtain ⟨k, hk⟩ := h.core.redAtt _ hm
      have hF := (h.core.waiting _ k).2 ⟨hm, hk⟩
      have : coldReady { g with redeliver := g.redeliver.erase m.seq } head m.seq
          = { g with redeliver := g.redeliver.erase m.seq } := by
        unfold coldReady skipRemoved
        simp only [hmax, if_neg hf, if_neg hnh]
      rw [this]
      exact Delivered.one h hcm (.inr ⟨⟨k, hF⟩, rfl⟩) (by omega)
  unfold Group.coldLoop
  rw [if_neg (by omega), if_neg (by omega), hmax]
  rw [if_pos (by simpa [List.contains_eq_mem, or_comm] using hcond)]
  rw [key.1]
  obtain ⟨ms, j1, _⟩ := coldLoop_spec (wait := 0) (c := c) (now := now) msgs _ _ ([] ++ (some m).toList) key.2.inv
    (by rw [key.2.same.members]; exact hcm)
  rw [j1]
  simp

/-! ### The attempt -/

variable {crc : Bytes → Nat} {t : Topic} {name c : Str}

/-- A fetch of a member tries: it gets something, or it asks the storage task for the message that is due. -/
theorem attempt_due {v : View} {J : List (Str × Str)} (hi : TInv t) (hr : Rel name t v J) {g : Group}
    (hg : mget t.groups name = some g) (hcm : mhas g.members c = true) (hcold : g.fetchingCold = false)
    (hb : g.pending.length < g.maxPending) (hdue : g.due < t.log.next) {id : Nat} {op : FetchOp}
    (hop : mget t.fetches id = some op) (hph : op.phase = .ready ∨ op.phase = .waiting) (hog : op.group = name) (hoc : op.consumer = c)
    (hgen : op.gen = g.gen) (hl : 0 < op.limit) (now : Nat) :
    (∃ ms, (t.step crc (.attempt id now)).2 = .fetched op.query (.ok ms) ∧ ms ≠ [])
    ∨ ((t.step crc (.attempt id now)).2 = .none ∧ g.due < t.log.ramStart
      ∧ mget (t.step crc (.attempt id now)).1.groups name = some { g with fetchingCold := true }
      ∧ (t.step crc (.attempt id now)).1.fetches = mset t.fetches id { op with phase := .disk }
      ∧ (t.step crc (.attempt id now)).1.chan = t.chan ++ [.cold id g.due op.limit]) := by
  have hgr := hr.grp g hg
  have hclamp : g.clampHead t.log.head = (g, false) := by rw [← hr.head]; exact hgr.clamped
  have hinact : g.inactive op.consumer op.gen = none := by
    unfold Group.inactive
    rw [if_neg (by rw [hgen]; simp), hoc, hcm]; rfl
  have hask : (t.ask op.consumer now).head = v.head := hr.head.symm
  have hd := deliver_due hask (show WindowOk (t.ask op.consumer now).log (t.ask op.consumer now).ramStart from hi.log.win)
    g v.fate op.limit hgr.inv (by show mhas g.members op.consumer = true; rw [hoc]; exact hcm) hl hb
  have hnf : g.nextFetchSeq t.log.head = g.due := by rw [← hr.head]; exact hgr.inv.core.nextFetch
  have hbp : g.backpressured = false := by unfold Group.backpressured; simp; omega
  have hfetch : g.fetch (t.ask op.consumer now) op.gen op.limit
      = ((deliver g (t.ask op.consumer now) op.limit).1, .ok (deliver g (t.ask op.consumer now) op.limit).2) := by
    unfold Group.fetch
    rw [show (t.ask op.consumer now).consumer = op.consumer from rfl, hinact]
    simp only
    rw [show (t.ask op.consumer now).head = t.log.head from rfl, hclamp]
  have htry : t.tryFetch op.group op.consumer op.gen op.limit now
      = ({ t with groups := mset t.groups op.group (t.decideFetch (deliver g (t.ask op.consumer now) op.limit).1
                    (deliver g (t.ask op.consumer now) op.limit).2).1
                  dirty := t.dirty || false },
          .ok (t.decideFetch (deliver g (t.ask op.consumer now) op.limit).1 (deliver g (t.ask op.consumer now) op.limit).2).2) := by
    unfold Topic.tryFetch
    rw [hog, hg]
    simp only [hclamp, hbp, hfetch, Bool.false_eq_true, if_false]
  have hph' : ¬ (op.phase ≠ .ready ∧ op.phase ≠ .waiting) := fun h => hph.elim h.1 h.2
  rcases hd with hne | ⟨heq, hnone⟩
  · left
    refine ⟨(deliver g (t.ask op.consumer now) op.limit).2, ?_, hne⟩
    have hdec : t.decideFetch (deliver g (t.ask op.consumer now) op.limit).1 (deliver g (t.ask op.consumer now) op.limit).2
        = ((deliver g (t.ask op.consumer now) op.limit).1, .ready (deliver g (t.ask op.consumer now) op.limit).2) := by
      unfold Topic.decideFetch
      rw [if_pos (by simpa using hne)]
    simp only [Topic.step, Topic.attempt, hop, if_neg hph', htry, hdec, Topic.endFetch]
  · right
    have hram : g.due < t.log.ramStart := by
      unfold readFromLog at hnone
      split at hnone
      · next hc =>
        have hlen := hi.log.len
        simp only [Bool.or_eq_true, decide_eq_true_eq, List.isEmpty_iff] at hc
        rcases hc with hc | hc
        · exact hc
        · rw [show t.log.msgs = [] from hc, List.length_nil] at hlen; omega
      · next hc =>
        simp only [Bool.or_eq_true, decide_eq_true_eq, List.isEmpty_iff, not_or] at hc
        have hlen := hi.log.len
        have hn := List.getElem?_eq_none_iff.1 hnone
        have e1 : (t.ask op.consumer now).log = t.log.msgs := rfl
        have e2 : (t.ask op.consumer now).ramStart = t.log.ramStart := rfl
        rw [e1, e2] at hn
        rw [e2] at hc
        omega
    have hdec : t.decideFetch g [] = ({ g with fetchingCold := true }, .needCold g.due) := by
      unfold Topic.decideFetch
      rw [hcold, hnf]
      simp [hdue, hram]
    rw [heq] at htry
    simp only [hdec] at htry
    refine ⟨?_, hram, ?_, ?_, ?_⟩ <;> simp only [Topic.step, Topic.attempt, hop, if_neg hph', htry]
    rw [hog, mget_mset_same]

/-! ### Waiting for the disk -/

theorem run_quiet_cons {e : Ev} {es : List Ev} (h : Quiet crc name t (e :: es)) :
    e.quiet t name ∧ Quiet crc name (t.step crc e).1 es := h

/-- What a quiet event leaves alone: the group, the head, and a request of the group that waits for the disk, except
that it may be answered. -/
theorem step_quiet {e : Ev} (hq : e.quiet t name) {id : Nat} {op : FetchOp} (hop : mget t.fetches id = some op)
    (hog : op.group = name) (hold : id < t.nextOp) (hd : op.onDisk = true) :
    mget (t.step crc e).1.groups name = mget t.groups name ∧ (t.step crc e).1.log.head = t.log.head
    ∧ (∀ fr l, SCmd.cold id fr l ∈ (t.step crc e).1.chan → SCmd.cold id fr l ∈ t.chan)
    ∧ ∃ ph, mget (t.step crc e).1.fetches id = some { op with phase := ph } ∧ { op with phase := ph }.onDisk = true
      ∧ (ph = op.phase ∨ ∃ fr l cs, t.chan = .cold id fr l :: cs ∧ ph = .answered (coldRead crc t.disk.segs fr l)) := by
  have refl : ∀ t' : Topic, t'.groups = t.groups → t'.log.head = t.log.head → t'.chan = t.chan → t'.fetches = t.fetches →
      mget t'.groups name = mget t.groups name ∧ t'.log.head = t.log.head
      ∧ (∀ fr l, SCmd.cold id fr l ∈ t'.chan → SCmd.cold id fr l ∈ t.chan)
      ∧ ∃ ph, mget t'.fetches id = some { op with phase := ph } ∧ { op with phase := ph }.onDisk = true
        ∧ (ph = op.phase ∨ ∃ fr l cs, t.chan = .cold id fr l :: cs ∧ ph = .answered (coldRead crc t.disk.segs fr l)) :=
    fun t' h1 h2 h3 h4 => ⟨by rw [h1], h2, by rw [h3]; exact fun _ _ h => h, op.phase, by rw [h4]; exact hop, hd, .inl rfl⟩
  have setg : ∀ (t' : Topic) (g' : Str) (x : Group), t'.groups = mset t.groups g' x → g' ≠ name → t'.log.head = t.log.head → t'.chan = t.chan →
      t'.fetches = t.fetches → mget t'.groups name = mget t.groups name ∧ t'.log.head = t.log.head
      ∧ (∀ fr l, SCmd.cold id fr l ∈ t'.chan → SCmd.cold id fr l ∈ t.chan)
      ∧ ∃ ph, mget t'.fetches id = some { op with phase := ph } ∧ { op with phase := ph }.onDisk = true
        ∧ (ph = op.phase ∨ ∃ fr l cs, t.chan = .cold id fr l :: cs ∧ ph = .answered (coldRead crc t.disk.segs fr l)) :=
    fun t' g' x h1 hne h2 h3 h4 => ⟨by rw [h1, mget_mset_ne _ _ (fun h => hne h.symm)], h2, by rw [h3]; exact fun _ _ h => h, op.phase, by rw [h4]; exact hop, hd, .inl rfl⟩
  have other : ∀ (id' : Nat) (op' : FetchOp), mget t.fetches id' = some op' → op'.group ≠ name → id ≠ id' := by
    intro id' op' h1 h2 h3
    rw [← h3, hop] at h1
    cases h1
    exact h2 hog
  cases e with
  | publish ts p => exact refl _ rfl rfl rfl rfl
  | send i =>
    simp only [Topic.step]
    split
    · exact refl _ rfl rfl rfl rfl
    · refine ⟨rfl, rfl, fun fr l h => ?_, op.phase, hop, hd, .inl rfl⟩
      rcases List.mem_append.1 h with h | h
      · exact h
      · simp at h
  | join g conn c =>
    have hne : g ≠ name := hq
    exact setg _ g _ rfl hne rfl rfl rfl
  | leave g c gen order =>
    have hne : g ≠ name := hq
    simp only [Topic.step, Topic.leave]
    split
    · exact refl _ rfl rfl rfl rfl
    · split
      · exact refl _ rfl rfl rfl rfl
      · split
        · exact refl _ rfl rfl rfl rfl
        · exact setg _ g _ rfl hne rfl rfl rfl
  | disconnect conn order => exact hq.elim
  | fetch g c gen l p =>
    simp only [Topic.step]
    split
    · exact refl _ rfl rfl rfl rfl
    · refine ⟨rfl, rfl, fun _ _ h => h, op.phase, ?_, hd, .inl rfl⟩
      rw [mget_mset_ne _ _ (by omega)]; exact hop
  | attempt id' now =>
    simp only [Topic.step, Topic.attempt]
    split
    · exact refl _ rfl rfl rfl rfl
    · next op' hop' =>
      have hne : op'.group ≠ name := fun h => hq ⟨op', hop', h⟩
      have hid := other id' op' hop' hne
      split
      · exact refl _ rfl rfl rfl rfl
      · obtain ⟨h1, h2, h3, h4⟩ := tryFetch_waits t op'.group op'.consumer op'.gen op'.limit now
        have hgrp : mget (t.tryFetch op'.group op'.consumer op'.gen op'.limit now).1.groups name = mget t.groups name :=
          tryFetch_other t (fun h => hne h.symm) _ _ _ _
        have hlog := (tryFetch_frame t op'.group op'.consumer op'.gen op'.limit now).1.log
        have hend : ∀ r, mget ((t.tryFetch op'.group op'.consumer op'.gen op'.limit now).1.endFetch id' op' r).1.groups name = mget t.groups name
            ∧ ((t.tryFetch op'.group op'.consumer op'.gen op'.limit now).1.endFetch id' op' r).1.log.head = t.log.head
            ∧ (∀ fr l, SCmd.cold id fr l ∈ ((t.tryFetch op'.group op'.consumer op'.gen op'.limit now).1.endFetch id' op' r).1.chan → SCmd.cold id fr l ∈ t.chan)
            ∧ ∃ ph, mget ((t.tryFetch op'.group op'.consumer op'.gen op'.limit now).1.endFetch id' op' r).1.fetches id = some { op with phase := ph } ∧ { op with phase := ph }.onDisk = true
              ∧ (ph = op.phase ∨ ∃ fr l cs, t.chan = .cold id fr l :: cs ∧ ph = .answered (coldRead crc t.disk.segs fr l)) := by
          intro r
          refine ⟨hgrp, by rw [show ((t.tryFetch op'.group op'.consumer op'.gen op'.limit now).1.endFetch id' op' r).1.log = (t.tryFetch op'.group op'.consumer op'.gen op'.limit now).1.log from rfl, hlog], ?_, op.phase, ?_, hd, .inl rfl⟩
          · intro fr l h
            rw [show ((t.tryFetch op'.group op'.consumer op'.gen op'.limit now).1.endFetch id' op' r).1.chan = (t.tryFetch op'.group op'.consumer op'.gen op'.limit now).1.chan from rfl, h4] at h
            exact h
          · simp only [Topic.endFetch, h2, mget_mdel, if_neg hid]; exact hop
        split
        · exact hend _
        · exact hend _
        · refine ⟨hgrp, by simp only; rw [hlog], ?_, op.phase, ?_, hd, .inl rfl⟩
          · intro fr l h
            rcases List.mem_append.1 h with h | h
            · exact h
            · simp only [List.mem_singleton, SCmd.cold.injEq] at h
              exact absurd h.1 hid
          · simp only [mget_mset_ne _ _ hid]; exact hop
        · split
          · refine ⟨hgrp, by simp only; rw [hlog], ?_, op.phase, ?_, hd, .inl rfl⟩
            · intro fr l h; simp only [h4] at h; exact h
            · simp only [mget_mset_ne _ _ hid]; exact hop
          · exact hend _
  | giveUp id' =>
    simp only [Topic.step]
    split
    · exact refl _ rfl rfl rfl rfl
    · next op' hop' =>
      have hne : op'.group ≠ name := fun h => hq ⟨op', hop', h⟩
      split
      · refine ⟨rfl, rfl, fun _ _ h => h, op.phase, ?_, hd, .inl rfl⟩
        simp only [Topic.endFetch, mget_mdel, if_neg (other id' op' hop' hne)]; exact hop
      · exact refl _ rfl rfl rfl rfl
  | finish id' now =>
    simp only [Topic.step]
    split
    · exact refl _ rfl rfl rfl rfl
    · next op' hop' =>
      have hne : op'.group ≠ name := fun h => hq ⟨op', hop', h⟩
      have hid := other id' op' hop' hne
      split
      · next ms hms =>
        obtain ⟨h1, h2, h3, h4⟩ := finishCold_waits t op' ms now
        have hgrp : mget (t.finishCold op' ms now).1.groups name = mget t.groups name := by
          unfold Topic.finishCold
          split
          · rfl
          · simp only
            split
            · exact mget_mset_ne _ _ (fun h => hne h.symm)
            · split <;> exact mget_mset_ne _ _ (fun h => hne h.symm)
        refine ⟨hgrp, ?_, ?_, op.phase, ?_, hd, .inl rfl⟩
        · show (t.finishCold op' ms now).1.log.head = _
          rw [(finishCold_frame t op' ms now).1.log]
        · intro fr l h
          rw [show ((t.finishCold op' ms now).1.endFetch id' op' (t.finishCold op' ms now).2).1.chan = (t.finishCold op' ms now).1.chan from rfl, h4] at h
          exact h
        · simp only [Topic.endFetch, h2, mget_mdel, if_neg hid]; exact hop
      · exact refl _ rfl rfl rfl rfl
  | abort id' =>
    have hid : id ≠ id' := by
      intro h
      exact hq op (h ▸ hop) hog
    refine ⟨rfl, rfl, fun _ _ h => h, op.phase, ?_, hd, .inl rfl⟩
    simp only [Topic.step, mget_mdel, if_neg hid]; exact hop
  | ack g c gen s =>
    have hne : g ≠ name := hq
    simp only [Topic.step, Topic.ack]
    split
    · exact refl _ rfl rfl rfl rfl
    · split <;> exact setg _ g _ rfl hne rfl rfl rfl
  | seek g e =>
    have hne : g ≠ name := hq
    exact setg _ g _ rfl hne rfl rfl rfl
  | tick now order => exact hq.elim
  | evictLoad => exact refl _ rfl rfl rfl rfl
  | evictRun => simp only [Topic.step]; split <;> exact refl _ rfl rfl rfl rfl
  | save order =>
    simp only [Topic.step, Topic.saveGroups]
    split
    · refine ⟨rfl, rfl, fun fr l h => ?_, op.phase, hop, hd, .inl rfl⟩
      rcases List.mem_append.1 h with h | h
      · exact h
      · simp at h
    · exact refl _ rfl rfl rfl rfl
  | retainSend =>
    simp only [Topic.step]
    split
    · refine ⟨rfl, rfl, fun fr l h => ?_, op.phase, hop, hd, .inl rfl⟩
      rcases List.mem_append.1 h with h | h
      · exact h
      · simp at h
    · exact refl _ rfl rfl rfl rfl
  | retainDone => exact hq.elim
  | read f l =>
    simp only [Topic.step, Topic.startRead]
    split
    · refine ⟨rfl, rfl, fun fr l h => ?_, op.phase, hop, hd, .inl rfl⟩
      rcases List.mem_append.1 h with h | h
      · exact h
      · simp at h
    · exact refl _ rfl rfl rfl rfl
  | readDone id' => simp only [Topic.step]; split <;> exact refl _ rfl rfl rfl rfl
  | storage now =>
    simp only [Topic.step]
    split
    · exact refl _ rfl rfl rfl rfl
    · next x cs hc =>
      have hin : ∀ y, y ∈ cs → y ∈ t.chan := fun y hy => by rw [hc]; exact List.mem_cons_of_mem _ hy
      cases x with
      | cold id' fr l =>
        simp only [Topic.handle]
        by_cases hid : id = id'
        · subst hid
          refine ⟨trivial, trivial, fun fr l h => hin _ h, ?_⟩
          by_cases hp : op.phase = .disk
          · refine ⟨.answered (coldRead crc t.disk.segs fr l), ?_, rfl, .inr ⟨fr, l, cs, hc, rfl⟩⟩
            rw [mget_mupd, if_pos rfl, hop]
            simp [hp]
          · refine ⟨op.phase, ?_, hd, .inl rfl⟩
            rw [mget_mupd, if_pos rfl, hop]
            simp [hp]
        · refine ⟨trivial, trivial, fun fr l h => hin _ h, op.phase, ?_, hd, .inl rfl⟩
          rw [mget_mupd, if_neg hid]; exact hop
      | append m => exact ⟨rfl, rfl, fun fr l h => hin _ h, op.phase, hop, hd, .inl rfl⟩
      | coldRead id' fr l => exact ⟨rfl, rfl, fun fr l h => hin _ h, op.phase, hop, hd, .inl rfl⟩
      | save gs => exact ⟨rfl, rfl, fun fr l h => hin _ h, op.phase, hop, hd, .inl rfl⟩
      | retention => exact ⟨rfl, rfl, fun fr l h => hin _ h, op.phase, hop, hd, .inl rfl⟩
  | flush now => simp only [Topic.step, Topic.flushAll]; split <;> exact refl _ rfl rfl rfl rfl
  | leak s n now => exact refl _ rfl rfl rfl rfl
  | closeHandle s now => exact refl _ rfl rfl rfl rfl

theorem Quiet.ids {es : List Ev} (h : Quiet crc name t es) : joinIds name es = [] := by
  induction es generalizing t with
  | nil => rfl
  | cons e es ih =>
    have := ih h.2
    cases e <;> simp only [joinIds] <;> try exact this
    next g conn c => rw [if_neg (show ¬ g = name from h.1)]; exact this

/-- A request of group `name` that waits for the message `due` from the files. -/
structure ColdOk (name : Str) (id due : Nat) (op : FetchOp) (g : Group) (hd : Nat) (t : Topic) (f : Nat) : Prop where
  grp : mget t.groups name = some g
  head : t.log.head = hd
  old : id < t.nextOp
  flushed : due ≤ t.persisted
  asked : ∀ fr l, SCmd.cold id fr l ∈ t.chan → fr = due ∧ l = op.limit
  there : ∃ ph, mget t.fetches id = some { op with phase := ph } ∧ { op with phase := ph }.onDisk = true
    ∧ ∀ ms, ph = .answered ms → (∃ m ms', ms = m :: ms' ∧ m.seq = due) ∨ due < f

theorem ColdOk.step {base : Nat} {H : List Msg} {clock f f' : Nat} {W : List Msg} {id due hd : Nat} {op : FetchOp}
    {g : Group} (h : ColdOk name id due op g hd t f) (hog : op.group = name) (hl : 0 < op.limit)
    (hdi : DInv crc base H clock t f W) {e : Ev} (hq : e.quiet t name) (hf : f ≤ f')
    (hp : t.persisted ≤ (Topic.step crc t e).1.persisted) : ColdOk name id due op g hd (Topic.step crc t e).1 f' := by
  obtain ⟨ph, h1, h2, h3⟩ := h.there
  obtain ⟨a1, a2, a3, ph', a4, a5, a6⟩ := step_quiet (crc := crc) hq h1 hog h.old h2
  have hn := (step_waits crc t e).next
  have hold := h.old
  have hfl := h.flushed
  refine ⟨a1.trans h.grp, a2.trans h.head, by omega, by omega, fun fr l hc => h.asked fr l (a3 fr l hc), ph', a4, a5, ?_⟩
  intro ms hms
  rcases a6 with a6 | ⟨fr, l, cs, c1, c2⟩
  · rcases h3 ms (a6.symm.trans hms) with h | h
    · exact .inl h
    · exact .inr (by omega)
  · obtain ⟨e1, e2⟩ := h.asked fr l (by rw [c1]; exact List.mem_cons_self)
    by_cases hdf : fr < f
    · exact .inr (by omega)
    left
    obtain ⟨D, d1, d2, d3⟩ := hdi.disk.coldRead hdi.fitsW hdi.numW
    rw [c2, d3] at hms
    simp only [Phase.answered.injEq] at hms
    have hlen : 0 < ms.length := by
      rw [← hms, List.length_take, List.length_drop, List.length_take]; omega
    cases ms with
    | nil => simp at hlen
    | cons m ms' =>
      refine ⟨m, ms', rfl, ?_⟩
      have : (((W.take D).drop (fr - f)).take l)[0]? = some m := by rw [hms]; rfl
      rw [List.getElem?_take, if_pos (by omega), List.getElem?_drop] at this
      have hlt : fr - f + 0 < (W.take D).length := by
        apply Nat.lt_of_not_le
        intro hle
        rw [List.getElem?_eq_none hle] at this
        cases this
      rw [List.length_take] at hlt
      rw [List.getElem?_take, if_pos (by omega)] at this
      have := hdi.numW _ _ this
      omega

/-- `DInv.induct` for a property that depends on the events that follow. -/
theorem DInv.inductR {base : Nat} {H : List Msg} {now : Nat} (P : List Ev → Topic → Nat → Prop) {t0 : Topic} {f0 : Nat} {W0 : List Msg}
    (hd : DInv crc base H now t0 f0 W0) (hi : TInv t0) (es : List Ev) (h0 : P es t0 f0)
    (hstep : ∀ (H' : List Msg) (clock : Nat) (t : Topic) (f : Nat) (W : List Msg) (e : Ev) (es : List Ev) (f' : Nat),
      P (e :: es) t f → DInv crc base H' clock t f W → f ≤ f' → t.persisted ≤ (t.step crc e).1.persisted →
      P es (t.step crc e).1 f')
    (ho : Orderly now t0 es) :
    ∃ f W, P [] (t0.run crc es) f
      ∧ DInv crc base (H ++ published t0.log.next es) (clockAfter now es) (t0.run crc es) f W := by
  induction es generalizing t0 H now f0 W0 with
  | nil => exact ⟨f0, W0, by simpa [published, Topic.run] using h0, by simpa [published, clockAfter, Topic.run] using hd⟩
  | cons e es ih =>
    have hp : published t0.log.next (e :: es) = published t0.log.next [e] ++ published (t0.log.next + (published t0.log.next [e]).length) es :=
      published_append t0.log.next [e] es
    have hfit := ho.fits
    rw [hp] at hfit
    obtain ⟨f', W', ⟨h1, _⟩, h2, h3⟩ := hd.step hi e (fun i h => ho.inOrder i (by rw [h]; exact List.mem_cons_self))
      (fun ha => (ho.clock ha).1) (fun m hm => hfit m (List.mem_append_left _ hm))
    have hnext : (t0.step crc e).1.log.next = t0.log.next + (published t0.log.next [e]).length := by
      rw [h3.next, hd.next, List.length_append]; omega
    have hcfg : (t0.step crc e).1.cfg = t0.cfg := run_cfg crc [e] t0
    obtain ⟨f'', W'', g1, g2⟩ := ih h3 (hi.step crc e) (hstep H now t0 f0 W0 e es f' h0 hd h1 h2)
      ⟨fun i hi => ho.inOrder i (List.mem_cons_of_mem _ hi), fun ha => (ho.clock (hcfg ▸ ha)).2, fun m hm => by
        rw [hnext] at hm
        exact hfit m (List.mem_append_right _ hm)⟩
    rw [hnext] at g2
    refine ⟨f'', W'', g1, ?_⟩
    rw [hp, ← List.append_assoc]; exact g2

/-- The end of the wait. -/
theorem ColdOk.finish {v : View} {J : List (Str × Str)} {f id due hd : Nat} {op : FetchOp} {g : Group}
    (h : ColdOk name id due op { g with fetchingCold := true } hd t f) (hr : Rel name t v J) (hog : op.group = name)
    (htok : op.token = g.epoch) (hgen : op.gen = g.gen) (hcm : mhas g.members op.consumer = true)
    (hb : g.pending.length < g.maxPending) (hdue : due = g.due) (now : Nat) :
    (t.step crc (.finish id now)).2 = .none
    ∨ ∃ ms, (t.step crc (.finish id now)).2 = .fetched op.query (.ok ms) ∧ (ms ≠ [] ∨ due < f) := by
  obtain ⟨ph, h1, h2, h3⟩ := h.there
  cases ph with
  | ready => cases h2
  | waiting => cases h2
  | disk => left; simp only [Topic.step, h1]
  | answered ms =>
    right
    have hgr := (hr.grp _ h.grp).cold false
    simp only at hgr
    have hclamp : ({ g with fetchingCold := false } : Group).clampHead t.log.head = ({ g with fetchingCold := false }, false) := by
      rw [← hr.head]; exact hgr.clamped
    have hinact : ({ g with fetchingCold := false } : Group).inactive op.consumer op.gen = none := by
      unfold Group.inactive
      rw [if_neg (by rw [hgen]; simp)]
      simp only [hcm]; rfl
    have hfin : (t.finishCold { op with phase := .answered ms } ms now).2
        = .ok (Group.coldLoop op.consumer now t.log.head ms { g with fetchingCold := false } []).2 := by
      unfold Topic.finishCold
      simp only [hog, h.grp, hclamp, htok, ne_eq, not_true_eq_false, if_false, Group.registerCold, hinact]
    refine ⟨(Group.coldLoop op.consumer now t.log.head ms { g with fetchingCold := false } []).2, ?_, ?_⟩
    · simp only [Topic.step, h1, Topic.endFetch, hfin]
      rfl
    · rcases h3 ms rfl with ⟨m, ms', hms, hseq⟩ | hlt
      · left
        rw [hms, ← hr.head]
        exact coldLoop_due m ms' { g with fetchingCold := false } v.fate hgr.inv hcm hb (by rw [hseq, hdue]; rfl)
      · exact .inr hlt

/-! ### Who reads from the files -/

theorem issue_cold (g : Group) (c : Str) (now : Nat) (m : Msg) : (issue g c now m).1.fetchingCold = g.fetchingCold := by
  unfold issue
  split
  · unfold park; exact (advance_same _).cold
  · rfl

theorem skip_cold (g : Group) (h : Nat) : (skipRemoved g h).fetchingCold = g.fetchingCold := by
  unfold skipRemoved; split <;> rfl

theorem redeliverLoop_cold (a : Ask) (budget : Nat) (q : List Nat) : ∀ (g : Group) (acc : List Msg),
    (redeliverLoop a budget q g acc).1.fetchingCold = g.fetchingCold := by
  induction q with
  | nil => intro g acc; rfl
  | cons s q ih =>
    intro g acc
    unfold redeliverLoop
    split
    · split
      · exact ih _ _
      · split
        · rfl
        · rw [ih, issue_cold]
    · rfl

theorem freshLoop_cold (a : Ask) (budget n : Nat) : ∀ (g : Group) (acc : List Msg),
    (freshLoop a budget n g acc).1.fetchingCold = g.fetchingCold := by
  induction n with
  | zero => intro g acc; rfl
  | succ n ih =>
    intro g acc
    unfold freshLoop
    split
    · split
      · exact skip_cold _ _
      · rw [ih, issue_cold]; exact skip_cold _ _
    · rfl

theorem deliver_cold (g : Group) (a : Ask) (limit : Nat) : (deliver g a limit).1.fetchingCold = g.fetchingCold := by
  unfold deliver
  split
  · rfl
  · rw [freshLoop_cold, redeliverLoop_cold]

theorem coldLoop_cold (c : Str) (now head : Nat) (ms : List Msg) : ∀ (g : Group) (acc : List Msg),
    (Group.coldLoop c now head ms g acc).1.fetchingCold = g.fetchingCold := by
  have hready : ∀ (g : Group) (s : Nat), (coldReady g head s).fetchingCold = g.fetchingCold := by
    intro g s; unfold coldReady; split <;> exact skip_cold _ _
  induction ms with
  | nil => intro g acc; rfl
  | cons m ms ih =>
    intro g acc
    unfold Group.coldLoop
    split
    · rfl
    · split
      · exact ih _ _
      · split
        · rw [ih, issue_cold, hready]
        · rw [ih, hready]

theorem clamp_cold (g : Group) (h : Nat) (hc : (g.clampHead h).1.fetchingCold = true) : g.fetchingCold = true := by
  unfold clampHead at hc
  split at hc
  · simp only [invalidate, (advance_same _).cold] at hc; cases hc
  · exact hc

theorem fetch_cold (g : Group) (a : Ask) (gen l : Nat) (hc : (g.fetch a gen l).1.fetchingCold = true) : g.fetchingCold = true := by
  unfold Group.fetch at hc
  split at hc
  · exact hc
  · rw [deliver_cold] at hc; exact clamp_cold _ _ hc

theorem takeBack_cold (g : Group) (s : Nat) : (takeBack g s).fetchingCold = g.fetchingCold := by
  unfold takeBack
  split
  · rfl
  · unfold releaseSeq
    split
    · rfl
    · split <;> rfl

theorem takeBacks_cold (ss : List Nat) : ∀ g : Group, (ss.foldl takeBack g).fetchingCold = g.fetchingCold := by
  induction ss with
  | nil => intro g; rfl
  | cons s ss ih => intro g; rw [List.foldl_cons, ih, takeBack_cold]

theorem remove_cold (g : Group) (c : Str) (order : List Nat) : (g.removeMember c order).1.fetchingCold = g.fetchingCold := by
  unfold removeMember
  split
  · rfl
  · simp only [invalidate, releaseConsumer, (advance_same _).cold, takeBacks_cold]

theorem redelivery_cold (g : Group) (now : Nat) (order : List Nat) : (g.checkRedelivery now order).1.fetchingCold = g.fetchingCold := by
  unfold checkRedelivery
  split
  · rfl
  · simp only [(advance_same _).cold, takeBacks_cold]

theorem ack_cold (g : Group) (c : Str) (gen s : Nat) : (g.ack c gen s).1.fetchingCold = g.fetchingCold := by
  unfold Group.ack
  split
  · rfl
  · split
    · rfl
    · split
      · exact (advance_same _).cold
      · rfl

/-- A group that says that a disk read is in progress is right. -/
def ColdOwner (t : Topic) : Prop :=
  ∀ name g, mget t.groups name = some g → g.fetchingCold = true →
    ∃ id op, mget t.fetches id = some op ∧ op.group = name ∧ op.onDisk = true

theorem ColdOwner.same {t' : Topic} (h : ColdOwner t) (hf : t'.fetches = t.fetches)
    (hg : ∀ name g', mget t'.groups name = some g' → g'.fetchingCold = true → ∃ g, mget t.groups name = some g ∧ g.fetchingCold = true) :
    ColdOwner t' := by
  intro name g' h1 h2
  obtain ⟨g, h3, h4⟩ := hg name g' h1 h2
  obtain ⟨id, op, h5⟩ := h name g h3 h4
  exact ⟨id, op, by rw [hf]; exact h5⟩

theorem ColdOwner.setg {t' : Topic} (h : ColdOwner t) (hf : t'.fetches = t.fetches) {n : Str} {x : Group}
    (hg : t'.groups = mset t.groups n x) (hx : x.fetchingCold = true → ∃ g, mget t.groups n = some g ∧ g.fetchingCold = true) :
    ColdOwner t' := by
  refine h.same hf ?_
  intro name g' h1 h2
  rw [hg, mget_mset] at h1
  split at h1
  · next he => cases h1; subst he; exact hx h2
  · exact ⟨g', h1, h2⟩

theorem mget_map_snd {β γ : Type} (m : List (Str × β)) (f : Str → β → γ) (k : Str) :
    mget (m.map (fun e => (e.1, f e.1 e.2))) k = (mget m k).map (f k) := by
  induction m with
  | nil => rfl
  | cons e m ih =>
    rw [List.map_cons, mget_cons, mget_cons, ih]
    by_cases h : e.1 = k
    · simp [h]
    · simp [h]

theorem ColdOwner.mapg {t' : Topic} (h : ColdOwner t) (hf : t'.fetches = t.fetches) {fn : Str → Group → Group}
    (hg : t'.groups = t.groups.map (fun e => (e.1, fn e.1 e.2))) (hx : ∀ n g, (fn n g).fetchingCold = true → g.fetchingCold = true) :
    ColdOwner t' := by
  refine h.same hf ?_
  intro name g' h1 h2
  rw [hg, mget_map_snd] at h1
  cases hm : mget t.groups name with
  | none => rw [hm] at h1; cases h1
  | some g =>
    rw [hm] at h1
    simp only [Option.map_some, Option.some.injEq] at h1
    exact ⟨g, rfl, hx name g (by rw [h1]; exact h2)⟩

theorem newGroup_cold (t : Topic) {n : Str} (h : ((mget t.groups n).getD t.newGroup).fetchingCold = true) :
    ∃ g, mget t.groups n = some g ∧ g.fetchingCold = true := by
  cases hm : mget t.groups n with
  | none => rw [hm] at h; cases h
  | some g => rw [hm] at h; exact ⟨g, rfl, h⟩

/-- Which fetch it is may change: one that is not on disk is removed or moved. -/
theorem ColdOwner.fetches {t' : Topic} (h : ColdOwner t) (hg : t'.groups = t.groups)
    (hf : ∀ id op, mget t.fetches id = some op → op.onDisk = true →
      ∃ op', mget t'.fetches id = some op' ∧ op'.group = op.group ∧ op'.onDisk = true) : ColdOwner t' := by
  intro name g h1 h2
  rw [hg] at h1
  obtain ⟨id, op, h3, h4, h5⟩ := h name g h1 h2
  obtain ⟨op', h6, h7, h8⟩ := hf id op h3 h5
  exact ⟨id, op', h6, h7.trans h4, h8⟩

theorem dropBinding_owner (order : Str → List Nat) (b : Str × Str) (h : ColdOwner t) : ColdOwner (Topic.dropBinding order t b) := by
  unfold Topic.dropBinding
  split
  · exact h
  · next g hg =>
    split
    · exact h
    · exact h.setg rfl rfl (fun hc => ⟨g, hg, by rw [remove_cold] at hc; exact hc⟩)

theorem ColdOwner.step (h : ColdOwner t) (hids : IdsOk t) {e : Ev}
    (hab : ∀ id op, e = .abort id → mget t.fetches id = some op → op.onDisk = false) :
    ColdOwner (Topic.step crc t e).1 := by
  have same : ∀ t' : Topic, t'.groups = t.groups → t'.fetches = t.fetches → ColdOwner t' :=
    fun t' h1 h2 => h.same h2 (fun name g' h3 h4 => ⟨g', by rw [← h1]; exact h3, h4⟩)
  cases e with
  | publish ts p => exact same _ rfl rfl
  | send i => simp only [Topic.step]; split <;> exact same _ rfl rfl
  | join g conn c =>
    exact h.setg rfl rfl (fun hc => newGroup_cold t (clamp_cold _ _ hc))
  | leave g c gen order =>
    simp only [Topic.step, Topic.leave]
    split
    · exact h
    · next x hx =>
      split
      · exact h
      · split
        · exact h
        · exact h.setg rfl rfl (fun hc => ⟨x, hx, by rw [remove_cold] at hc; exact hc⟩)
  | disconnect conn order =>
    simp only [Topic.step, Topic.disconnect]
    split
    · exact h
    · next bs _ =>
      have : ∀ (bs : List (Str × Str)) (t : Topic), ColdOwner t → ColdOwner (bs.foldl (Topic.dropBinding order) t) := by
        intro bs
        induction bs with
        | nil => intro t h; exact h
        | cons b bs ih => intro t h; exact ih _ (dropBinding_owner order b h)
      exact this bs _ (same _ rfl rfl)
  | fetch g c gen l p =>
    simp only [Topic.step]
    split
    · exact same _ rfl rfl
    · refine h.fetches rfl (fun id op h1 h2 => ⟨op, ?_, rfl, h2⟩)
      have := hids.fetch id op h1
      simp only
      rw [mget_mset_ne _ _ (by omega)]; exact h1
  | attempt id now =>
    simp only [Topic.step, Topic.attempt]
    split
    · exact h
    · next op hop =>
      split
      · exact h
      · next hph =>
        have hnd : op.onDisk = false := by
          unfold FetchOp.onDisk
          cases hp : op.phase with
          | ready => rfl
          | waiting => rfl
          | disk => exact absurd ⟨by rw [hp]; simp, by rw [hp]; simp⟩ hph
          | answered ms => exact absurd ⟨by rw [hp]; simp, by rw [hp]; simp⟩ hph
        have hfe := (tryFetch_waits t op.group op.consumer op.gen op.limit now).2.1
        have hne : ∀ id' op', mget t.fetches id' = some op' → op'.onDisk = true → id' ≠ id := by
          intro id' op' h1 h2 h3
          subst h3
          rw [hop] at h1; cases h1
          rw [hnd] at h2; cases h2
        -- the groups after an attempt that does not go to disk
        have hsame : (∀ fr, (t.tryFetch op.group op.consumer op.gen op.limit now).2 ≠ .ok (.needCold fr)) →
            ColdOwner (t.tryFetch op.group op.consumer op.gen op.limit now).1 := by
          intro hno
          unfold Topic.tryFetch at hno ⊢
          split
          · exact h
          · next g hg =>
            simp only [hg] at hno
            simp only
            split
            · exact h.setg rfl rfl (fun hc => ⟨g, hg, clamp_cold _ _ hc⟩)
            · next hb =>
              rw [if_neg hb] at hno
              split
              · exact h.setg rfl rfl (fun hc => ⟨g, hg, clamp_cold _ _ (fetch_cold _ _ _ _ hc)⟩)
              · next msgs hm =>
                simp only [hm] at hno
                refine h.setg rfl rfl (fun hc => ⟨g, hg, clamp_cold g t.log.head (fetch_cold (g.clampHead t.log.head).1 (t.ask op.consumer now) op.gen op.limit ?_)⟩)
                · unfold Topic.decideFetch at hc hno
                  split at hc
                  · exact hc
                  · next h1 =>
                    rw [if_neg h1] at hno
                    split at hc
                    · exact hc
                    · next h2 =>
                      rw [if_neg h2] at hno
                      split at hc
                      · next h3 => rw [if_pos h3] at hno; exact absurd rfl (hno _)
                      · exact hc
        have hdel : ∀ r, (∀ fr, (t.tryFetch op.group op.consumer op.gen op.limit now).2 ≠ .ok (.needCold fr)) →
            ColdOwner ((t.tryFetch op.group op.consumer op.gen op.limit now).1.endFetch id op r).1 := by
          intro r hno
          refine (hsame hno).fetches rfl (fun id' op' h1 h2 => ⟨op', ?_, rfl, h2⟩)
          rw [hfe] at h1
          simp only [Topic.endFetch, hfe]
          rw [mget_mdel_ne _ (hne id' op' h1 h2)]; exact h1
        split
        · next hr => exact hdel _ (fun fr => by rw [hr]; simp)
        · next hr => exact hdel _ (fun fr => by rw [hr]; simp)
        · next fr hr =>
          intro name g' h1 h2
          simp only at h1 ⊢
          by_cases hn : name = op.group
          · exact ⟨id, { op with phase := .disk }, mget_mset_same _ _ _, hn.symm, rfl⟩
          · rw [tryFetch_other t hn] at h1
            obtain ⟨id', op', h3, h4, h5⟩ := h name g' h1 h2
            exact ⟨id', op', by rw [mget_mset_ne _ _ (hne id' op' h3 h5)]; exact h3, h4, h5⟩
        · next hr =>
          split
          · refine (hsame (fun fr => by rw [hr]; simp)).fetches rfl (fun id' op' h1 h2 => ⟨op', ?_, rfl, h2⟩)
            rw [hfe] at h1
            simp only
            rw [mget_mset_ne _ _ (hne id' op' h1 h2)]; exact h1
          · exact hdel _ (fun fr => by rw [hr]; simp)
  | giveUp id =>
    simp only [Topic.step]
    split
    · exact h
    · next op hop =>
      split
      · next hp =>
        refine h.fetches rfl (fun id' op' h1 h2 => ⟨op', ?_, rfl, h2⟩)
        have : id' ≠ id := by
          intro h3; subst h3
          rw [hop] at h1; cases h1
          unfold FetchOp.onDisk at h2
          rw [hp] at h2; cases h2
        simp only [Topic.endFetch]
        rw [mget_mdel_ne _ this]; exact h1
      · exact h
  | finish id now =>
    simp only [Topic.step]
    split
    · exact h
    · next op hop =>
      split
      · next ms hms =>
        have hfe := (finishCold_waits t op ms now).2.1
        intro name g' h1 h2
        simp only [Topic.endFetch] at h1 ⊢
        rw [hfe]
        by_cases hn : name = op.group
        · exfalso
          subst hn
          unfold Topic.finishCold at h1
          split at h1
          · next hg => rw [hg] at h1; cases h1
          · next g hg =>
            simp only at h1
            have c0 : ∀ x : Group × Bool, x = ({ g with fetchingCold := false } : Group).clampHead t.log.head → x.1.fetchingCold = false := by
              intro x hx
              cases hc : x.1.fetchingCold with
              | false => rfl
              | true => rw [hx] at hc; have := clamp_cold _ _ hc; cases this
            split at h1
            · rw [mget_mset_same] at h1; cases h1; cases h2
            · have key : ((({ g with fetchingCold := false } : Group).clampHead t.log.head).1.registerCold op.consumer now op.gen ms t.log.head).1.fetchingCold = false := by
                unfold registerCold
                split
                · exact c0 _ rfl
                · simp only
                  rw [coldLoop_cold]
                  cases hc : (((({ g with fetchingCold := false } : Group).clampHead t.log.head).1.clampHead t.log.head).1).fetchingCold with
                  | false => rfl
                  | true => have := clamp_cold _ _ hc; rw [c0 _ rfl] at this; cases this
              split at h1
              · rw [mget_mset_same] at h1; cases h1; rw [key] at h2; cases h2
              · rw [mget_mset_same] at h1; cases h1; rw [key] at h2; cases h2
        · have hgr : mget (t.finishCold op ms now).1.groups name = mget t.groups name := by
            unfold Topic.finishCold
            split
            · rfl
            · simp only
              split
              · exact mget_mset_ne _ _ hn
              · split <;> exact mget_mset_ne _ _ hn
          rw [hgr] at h1
          obtain ⟨id', op', h3, h4, h5⟩ := h name g' h1 h2
          have : id' ≠ id := by
            intro h6; subst h6
            rw [hop] at h3; cases h3
            exact hn h4.symm
          exact ⟨id', op', by rw [mget_mdel_ne _ this]; exact h3, h4, h5⟩
      · exact h
  | abort id =>
    refine h.fetches rfl (fun id' op' h1 h2 => ⟨op', ?_, rfl, h2⟩)
    have : id' ≠ id := by
      intro h3; subst h3
      rw [hab id' op' rfl h1] at h2; cases h2
    simp only [Topic.step]
    rw [mget_mdel_ne _ this]; exact h1
  | ack g c gen s =>
    simp only [Topic.step, Topic.ack]
    split
    · exact h
    · next x hx =>
      split <;> exact h.setg rfl rfl (fun hc => ⟨x, hx, by rw [ack_cold] at hc; exact clamp_cold _ _ hc⟩)
  | seek g b =>
    refine h.setg rfl rfl (fun hc => ?_)
    split at hc <;> cases hc
  | tick now order => exact h.mapg rfl rfl (fn := fun n g => (g.checkRedelivery now (order n)).1) (fun n g hc => by rw [redelivery_cold] at hc; exact hc)
  | evictLoad => exact same _ rfl rfl
  | evictRun => simp only [Topic.step]; split <;> exact same _ rfl rfl
  | save order => simp only [Topic.step, Topic.saveGroups]; split <;> exact same _ rfl rfl
  | retainSend => simp only [Topic.step]; split <;> exact same _ rfl rfl
  | retainDone =>
    simp only [Topic.step]
    split
    · next hd _ =>
      unfold Topic.applyOutcome
      split
      · exact h.mapg rfl rfl (fn := fun _ g => (g.clampHead hd).1) (fun n g hc => clamp_cold _ _ hc)
      · exact same _ rfl rfl
    · exact h
  | read f l => simp only [Topic.step, Topic.startRead]; split <;> exact same _ rfl rfl
  | readDone id => simp only [Topic.step]; split <;> exact same _ rfl rfl
  | storage now =>
    simp only [Topic.step]
    split
    · exact h
    · next x cs hc =>
      cases x with
      | cold id fr l =>
        refine h.fetches rfl (fun id' op' h1 h2 => ?_)
        simp only [Topic.handle, mget_mupd]
        split
        · next he =>
          subst he
          rw [h1]
          simp only [Option.map_some]
          split
          · exact ⟨_, rfl, rfl, rfl⟩
          · exact ⟨_, rfl, rfl, h2⟩
        · exact ⟨op', h1, rfl, h2⟩
      | append m => exact same _ rfl rfl
      | coldRead id' fr l => exact same _ rfl rfl
      | save gs => exact same _ rfl rfl
      | retention => exact same _ rfl rfl
  | flush now => simp only [Topic.step, Topic.flushAll]; split <;> exact same _ rfl rfl
  | leak s n now => exact same _ rfl rfl
  | closeHandle s now => exact same _ rfl rfl

theorem ColdOwner.run (h : ColdOwner t) (hids : IdsOk t) {es : List Ev} (hn : NoDiskAbort crc t es) :
    ColdOwner (Topic.run crc t es) := by
  induction es generalizing t with
  | nil => exact h
  | cons e es ih => exact ih (h.step hids hn.1) (hids.step crc e) hn.2

theorem ColdOwner.build (crc : Bytes → Nat) (cfg : Cfg) (lossy : Bytes → Str) (d : Disk) :
    ColdOwner (Topic.build crc cfg lossy d) := by
  intro name g h1 h2
  have hg : (Topic.build crc cfg lossy d).groups = (recover crc lossy d).groups.map (fun e => (e.1,
      (fun _ fl => Group.restore fl (Topic.build crc cfg lossy d).log.head cfg.maxPending cfg.ackWait cfg.maxDeliveries) e.1 e.2)) := rfl
  rw [hg, mget_map_snd _ (fun _ fl => Group.restore fl (Topic.build crc cfg lossy d).log.head cfg.maxPending cfg.ackWait cfg.maxDeliveries)] at h1
  cases hm : mget (recover crc lossy d).groups name with
  | none => rw [hm] at h1; cases h1
  | some fl => rw [hm] at h1; cases h1; cases h2

/-! ### The storage task answers -/

theorem step_chan (crc : Bytes → Nat) (t : Topic) (e : Ev) (hs : ∀ now, e ≠ .storage now) : t.chan <+: (t.step crc e).1.chan := by
  cases e with
  | storage now => exact absurd rfl (hs now)
  | send i => simp only [Topic.step]; split <;> simp
  | leave g c gen order =>
    simp only [Topic.step, Topic.leave]
    split
    · simp
    · split
      · simp
      · split <;> simp
  | disconnect conn order =>
    simp only [Topic.step, Topic.disconnect]
    split
    · simp
    · rw [(dropBindings_waits order _ _).2.2.2]; simp
  | fetch g c gen l p => simp only [Topic.step]; split <;> simp
  | attempt id now =>
    simp only [Topic.step, Topic.attempt]
    split
    · simp
    · next op hop =>
      split
      · simp
      · have := (tryFetch_waits t op.group op.consumer op.gen op.limit now).2.2.2
        split
        · simp [Topic.endFetch, this]
        · simp [Topic.endFetch, this]
        · simp
        · split
          · simp [this]
          · simp [Topic.endFetch, this]
  | giveUp id =>
    simp only [Topic.step]
    split
    · simp
    · split <;> simp [Topic.endFetch]
  | finish id now =>
    simp only [Topic.step]
    split
    · simp
    · next op hop =>
      split
      · next ms _ => simp [Topic.endFetch, (finishCold_waits t op ms now).2.2.2]
      · simp
  | ack g c gen s =>
    simp only [Topic.step, Topic.ack]
    split
    · simp
    · split <;> simp
  | evictRun => simp only [Topic.step]; split <;> simp
  | save order => simp only [Topic.step, Topic.saveGroups]; split <;> simp
  | retainSend => simp only [Topic.step]; split <;> simp
  | retainDone =>
    simp only [Topic.step]
    split
    · unfold Topic.applyOutcome; split <;> simp
    · simp
  | read f l => simp only [Topic.step, Topic.startRead]; split <;> simp
  | readDone id => simp only [Topic.step]; split <;> simp
  | flush now => simp only [Topic.step, Topic.flushAll]; split <;> simp
  | _ => simp [Topic.step, Topic.join, Topic.seek, Topic.tick]

/-- The request is answered, or its command is among the next `n`. -/
def Coming (id n : Nat) (t : Topic) : Prop :=
  ∃ op, mget t.fetches id = some op ∧ ((∃ ms, op.phase = .answered ms) ∨ (op.phase = .disk ∧ ∃ i fr l, i < n ∧ t.chan[i]? = some (.cold id fr l)))

theorem Coming.step {id n : Nat} (h : Coming id n t) (hold : id < t.nextOp) {e : Ev} (hq : e.quiet t name)
    (hn : ∀ op, mget t.fetches id = some op → op.group = name) :
    Coming id (n - storages [e]) (Topic.step crc t e).1 := by
  obtain ⟨op, h1, h2⟩ := h
  have hd : op.onDisk = true := by
    unfold FetchOp.onDisk
    rcases h2 with ⟨ms, h2⟩ | ⟨h2, _⟩ <;> rw [h2]
  obtain ⟨_, _, _, ph, a4, _, a6⟩ := step_quiet (crc := crc) hq h1 (hn op h1) hold hd
  refine ⟨_, a4, ?_⟩
  rcases a6 with a6 | ⟨_, _, _, _, a6⟩
  · subst a6
    rcases h2 with h2 | ⟨h2, i, fr, l, h3, h4⟩
    · exact .inl h2
    · right
      refine ⟨h2, ?_⟩
      by_cases hs : ∃ now, e = .storage now
      · obtain ⟨now, hs⟩ := hs
        subst hs
        cases hc : t.chan with
        | nil => rw [hc] at h4; simp at h4
        | cons x cs =>
          rw [hc] at h4
          cases i with
          | zero =>
            -- then it would have been answered
            simp only [List.getElem?_cons_zero, Option.some.injEq] at h4
            subst h4
            exfalso
            simp only [Topic.step, hc, Topic.handle, mget_mupd, if_true, h1, Option.map_some, h2, Option.some.injEq] at a4
            have := congrArg FetchOp.phase a4
            simp [h2] at this
          | succ i =>
            simp only [List.getElem?_cons_succ] at h4
            refine ⟨i, fr, l, by simp [storages]; omega, ?_⟩
            simp only [Topic.step, hc]
            cases x <;> exact h4
      · have hp := step_chan crc t e (fun now h => hs ⟨now, h⟩)
        have h0 : storages [e] = 0 := by
          cases e <;> first | rfl | exact absurd ⟨_, rfl⟩ hs
        rw [h0]
        obtain ⟨x, hx⟩ := hp
        refine ⟨i, fr, l, h3, ?_⟩
        rw [← hx, List.getElem?_append_left (by
          apply Nat.lt_of_not_le
          intro hle
          rw [List.getElem?_eq_none hle] at h4; cases h4)]
        exact h4
  · exact .inl ⟨_, a6⟩

end Verif.Stream
