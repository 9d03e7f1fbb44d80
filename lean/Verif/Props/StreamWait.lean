import Verif.Proofs.StreamWait
import Verif.Props.StreamProgress

/-!
# Long-polling fetches are woken (C65)

`Polls` (`Model/StreamWait.lean`) runs the steps of a topic, the calls of `notify_waiters` that follow them, and the
fetches that wait for such a call, in any order.  See `Spec/StreamGroup.lean` for `viewAfter`.
-/

namespace Verif.Stream

open Group

section

variable {crc : Bytes → Nat} {base : Nat} {H : List Msg} {now : Nat} {t : Topic}

/-- **C65**: no wake-up is lost.  In every schedule: if a waiting fetch with a positive limit belongs to a group that is
owed a message, and every step that has changed something has made its notification, then the fetch has been woken: it
goes through its loop again and tries. -/
theorem C65_no_lost_wakeup (hst : StartsWith crc base H now t) (hmd : 1 ≤ t.cfg.maxDeliveries) (ws : List WEv)
    (hnd : ∀ name, (joinIds name ((Polls.start t).acts crc ws)).Nodup)
    (hf : ∀ m ∈ published t.log.next ((Polls.start t).acts crc ws), Fits m)
    (id : Nat) (op : FetchOp) (hop : mget ((Polls.start t).run crc ws).t.fetches id = some op)
    (hw : op.phase = .waiting) (hl : 0 < op.limit)
    (q : Nat) (hq : q < (viewAfter crc t op.group ((Polls.start t).acts crc ws)).next)
    (howed : ((viewAfter crc t op.group ((Polls.start t).acts crc ws)).fate q).owed = true)
    (hdone : ((Polls.start t).run crc ws).notifying = 0) (hsent : ((Polls.start t).run crc ws).t.sends = []) (at_ : Nat) :
    ((Polls.start t).run crc ws).acts crc [.listen id, .ev (.attempt id at_)] = [.attempt id at_] := by
  have hinv := PollInv.run hst hmd ws hnd hf
  generalize hs : (Polls.start t).run crc ws = s at hop hdone hsent hinv ⊢
  obtain ⟨hpoll, n, b, hsn⟩ := hinv.has id op hop hw
  cases b with
  | true =>
    have hstep : s.step crc (.listen id) = s := by simp only [Polls.step, hop, hpoll, if_true, hw, hsn]
    simp only [Polls.acts, hstep, Polls.act, Option.toList_none, List.nil_append, hop, hpoll, if_true, hsn,
      Option.toList_some, List.append_nil]
  | false =>
    have hne : n ≠ s.counter := by
      rintro rfl
      rcases hinv.asleep id op hop hw hl hsn with h | h
      · rw [hdone, hsent] at h; exact absurd h (by decide)
      · rw [h.2 q hq] at howed; cases howed
    have hstep : s.step crc (.listen id) = { s with snaps := mset s.snaps id (s.counter, true) } := by
      simp only [Polls.step, hop, hpoll, if_true, hw, hsn, if_pos hne]
    simp only [Polls.acts, hstep, Polls.act, Option.toList_none, List.nil_append, hop, hpoll, if_true, mget_mset_same,
      Option.toList_some, List.append_nil]

/-- **C65**, what the woken fetch gets: if its consumer is a member with the current generation, there is room for
another delivery, and no disk read of the group is in progress, then it returns a message or goes to the files (see
`C54_partial` for the rest).  The hypothesis `hab` is the one of `C54_partial`. -/
theorem C65_woken_gets (hst : StartsWith crc base H now t) (hmd : 1 ≤ t.cfg.maxDeliveries) (ws : List WEv)
    (hnd : ∀ name, (joinIds name ((Polls.start t).acts crc ws)).Nodup)
    (hf : ∀ m ∈ published t.log.next ((Polls.start t).acts crc ws), Fits m)
    (hab : NoDiskAbort crc t ((Polls.start t).acts crc ws))
    (id : Nat) (op : FetchOp) (hop : mget ((Polls.start t).run crc ws).t.fetches id = some op)
    (hw : op.phase = .waiting) (hl : 0 < op.limit)
    (q : Nat) (hq : q < (viewAfter crc t op.group ((Polls.start t).acts crc ws)).next)
    (howed : ((viewAfter crc t op.group ((Polls.start t).acts crc ws)).fate q).owed = true)
    (conn : Str) (hc : (op.consumer, conn) ∈ (viewAfter crc t op.group ((Polls.start t).acts crc ws)).members)
    (hgen : op.gen = (viewAfter crc t op.group ((Polls.start t).acts crc ws)).gen)
    (hroom : ∀ L : List Nat, L.Nodup →
      (∀ s ∈ L, ((viewAfter crc t op.group ((Polls.start t).acts crc ws)).fate s).isHeld = true) → L.length < t.cfg.maxPending)
    (hidle : ∀ i o, mget ((Polls.start t).run crc ws).t.fetches i = some o → o.group = op.group → o.onDisk = false)
    (at_ : Nat) :
    (∃ ms, (((Polls.start t).run crc ws).t.step crc (.attempt id at_)).2 = .fetched op.query (.ok ms) ∧ ms ≠ [])
    ∨ mget (((Polls.start t).run crc ws).t.step crc (.attempt id at_)).1.fetches id = some { op with phase := .disk } := by
  have hstarted := hst.started hmd
  have hids0 : IdsOk t := by obtain ⟨lossy, d, _, ht⟩ := hst; rw [ht]; exact IdsOk.build crc t.cfg lossy d
  have howner0 : ColdOwner t := by obtain ⟨lossy, d, _, ht⟩ := hst; rw [ht]; exact ColdOwner.build crc t.cfg lossy d
  have habove := nothing_above hst hmd op.group _ (hnd op.group) hf
  obtain ⟨J, hr, hi, hcfg, _, _⟩ := hstarted.reach op.group ((Polls.start t).acts crc ws) (hnd _)
  have howner := howner0.run hids0 hab
  have htop : ((Polls.start t).run crc ws).t = t.run crc ((Polls.start t).acts crc ws) := Polls.run_topic crc ws (Polls.start t)
  rw [htop] at hop hidle ⊢
  generalize hes : (Polls.start t).acts crc ws = es at *
  obtain ⟨g, hg⟩ : ∃ g, mget (t.run crc es).groups op.group = some g := by
    cases hm : mget (t.run crc es).groups op.group with
    | some g => exact ⟨g, rfl⟩
    | none => have := (hr.unk hm).2; rw [this] at hc; cases hc
  have hgr := hr.grp g hg
  have hcm : mhas g.members op.consumer = true := hgr.mhas.2 ⟨conn, hc⟩
  have hcold : g.fetchingCold = false := by
    cases hx : g.fetchingCold with
    | false => rfl
    | true =>
      obtain ⟨i, o, h1, h2, h3⟩ := howner op.group g hg hx
      rw [hidle i o h1 h2] at h3; cases h3
  have hb : g.pending.length < g.maxPending := by
    have hk := hroom (mkeys g.pending) hgr.inv.core.wf (fun x hx => by
      obtain ⟨p, hp⟩ := Option.isSome_iff_exists.1 (mget_isSome.2 hx)
      have := (hgr.inv.core.held x p.consumer p.at_ p.count).2 (by rw [hp])
      rw [this]; rfl)
    rw [hgr.mp, hcfg]
    simpa [mkeys] using hk
  have hdue : g.due < (t.run crc es).log.next := by
    rw [← hr.next]
    unfold Group.due
    cases hqq : g.redeliver with
    | nil =>
      show g.next < _
      have hfs : (viewAfter crc t op.group es).fate q = .fresh := by
        cases hf : (viewAfter crc t op.group es).fate q with
        | fresh => rfl
        | waiting k =>
          have := ((hgr.inv.core.waiting q k).1 hf).1
          rw [hqq] at this; cases this
        | _ => rw [hf] at howed; cases howed
      have := (hgr.inv.core.fresh q).1 hfs
      omega
    | cons d qs =>
      have hmem : d ∈ g.redeliver := by rw [hqq]; exact List.mem_cons_self
      obtain ⟨k, hk⟩ := hgr.inv.core.redAtt d hmem
      apply Nat.lt_of_not_le
      intro hx
      exact (habove d hx).2 k ((hgr.inv.core.waiting d k).2 ⟨hmem, hk⟩)
  rcases attempt_due (crc := crc) hi hr hg hcm hcold hb hdue hop (.inr hw) rfl rfl (by rw [hgen, hgr.gen]) hl at_ with h | h
  · exact .inl h
  · exact .inr (by rw [h.2.2.2.1, mget_mset_same])

end

/-! ### Examples -/

namespace Ex

/-- A consumer waits while the topic is empty (its second attempt does not happen, nobody has notified it); then a
message is published, and the notification follows. -/
def wsPublished : List WEv :=
  [.ev (.join [1] [9] [7]), .ev (.fetch [1] [7] 1 5 true), .listen 0, .ev (.attempt 0 20),
   .listen 0, .ev (.attempt 0 21), .ev (.publish 22 [1]), .listen 0, .ev (.attempt 0 23),
   .ev (.send 0), .listen 0, .ev (.attempt 0 24), .notify]

/-- Two consumers; the first holds message 1 and the second waits when the connection of the first ends. -/
def wsHeld : List WEv :=
  [.ev (.join [1] [9] [7]), .ev (.join [1] [8] [6]), .ev (.publish 22 [1]), .ev (.send 0), .notify,
   .ev (.fetch [1] [7] 1 5 true), .listen 0, .ev (.attempt 0 23),
   .ev (.fetch [1] [6] 1 5 true), .listen 1, .ev (.attempt 1 24),
   .ev (.disconnect [9] (fun _ => [1])), .notify]

theorem actsPublished : (Polls.start tL).acts sum wsPublished
    = [.join [1] [9] [7], .fetch [1] [7] 1 5 true, .attempt 0 20, .publish 22 [1], .send 0] := rfl

theorem fitsPublished : ∀ m ∈ published tL.log.next ((Polls.start tL).acts sum wsPublished), Fits m := by
  rw [actsPublished]; intro m hm; simp [published] at hm; subst hm
  exact ⟨by decide, by decide⟩

theorem joinsPublished : ∀ name, (joinIds name ((Polls.start tL).acts sum wsPublished)).Nodup := by
  intro name; rw [actsPublished]; simp only [joinIds]; split <;> simp

end Ex

/-- The hypotheses of `C65_no_lost_wakeup` hold, and the woken fetch gets the message. -/
example (at_ : Nat) :
    ((Polls.start Ex.tL).run Ex.sum Ex.wsPublished).acts Ex.sum [.listen 0, .ev (.attempt 0 at_)] = [.attempt 0 at_]
    ∧ ((((Polls.start Ex.tL).run Ex.sum Ex.wsPublished).t.step Ex.sum (.attempt 0 25)).2
        matches .fetched ⟨[1], [7], 1, 5⟩ (.ok [⟨1, 22, [1]⟩])) :=
  ⟨C65_no_lost_wakeup Ex.startsL (by decide) Ex.wsPublished Ex.joinsPublished Ex.fitsPublished 0 _ rfl rfl (by decide) 1
    (by decide) (by decide) (by decide) rfl at_, by decide⟩

/-- The hypotheses of `C65_woken_gets` hold too. -/
example (at_ : Nat) :
    (∃ ms, (((Polls.start Ex.tL).run Ex.sum Ex.wsPublished).t.step Ex.sum (.attempt 0 at_)).2
      = .fetched ⟨[1], [7], 1, 5⟩ (.ok ms) ∧ ms ≠ [])
    ∨ mget (((Polls.start Ex.tL).run Ex.sum Ex.wsPublished).t.step Ex.sum (.attempt 0 at_)).1.fetches 0
      = some { group := [1], consumer := [7], gen := 1, limit := 5, poll := true, token := 0, phase := .disk } := by
  have hfate : ∀ s, (viewAfter Ex.sum Ex.tL [1] ((Polls.start Ex.tL).acts Ex.sum Ex.wsPublished)).fate s
      = if 1 ≤ s then .fresh else .skipped := fun s => rfl
  refine C65_woken_gets Ex.startsL (by decide) Ex.wsPublished Ex.joinsPublished Ex.fitsPublished
    (Ex.noDiskAbort _ _ (by rw [Ex.actsPublished]; simp)) 0
    { group := [1], consumer := [7], gen := 1, limit := 5, poll := true, token := 0, phase := .waiting } rfl rfl (by decide) 1
    (by decide) (by decide) [9] (by decide) (by decide) (fun L hL hh => ?_) (fun i o h hg => ?_) at_
  · cases L with
    | nil => decide
    | cons x L =>
      have := hh x List.mem_cons_self
      rw [hfate] at this
      split at this <;> cases this
  · have hfe : ((Polls.start Ex.tL).run Ex.sum Ex.wsPublished).t.fetches
        = [(0, { group := [1], consumer := [7], gen := 1, limit := 5, poll := true, token := 0, phase := .waiting })] := rfl
    rw [hfe, mget_cons] at h
    split at h
    · cases h; rfl
    · cases h

/-- Before the notification the fetch sleeps. -/
example : ((Polls.start Ex.tL).run Ex.sum (Ex.wsPublished.take 11)).acts Ex.sum [.listen 0, .ev (.attempt 0 25)] = [] := rfl

/-- The fetch of the second consumer is answered with nothing and waits; when the first one is gone it gets message 1. -/
example :
    let s := (Polls.start Ex.tL).run Ex.sum Ex.wsHeld
    s.t.fetches.map (fun x => (x.1, x.2.phase)) = [(1, .waiting)] ∧ s.notifying = 0
    ∧ (s.t.step Ex.sum (.attempt 1 30)).2 matches .fetched ⟨[1], [6], 1, 5⟩ (.ok [⟨1, 22, [1]⟩]) := by decide

end Verif.Stream
