import Verif.Proofs.StreamProgress
import Verif.Props.StreamLog

/-!
# Progress of fetches (C54)

See `Props/StreamLog.lean` for `StartsWith` and `Orderly`, `Spec/StreamGroup.lean` for `viewAfter`, `NoDiskAbort` and
`Quiet`.
-/

namespace Verif.Stream

open Group

namespace Ex

/-- Messages 1 to 3 are in the files only; a consumer joins, and its fetch goes to the files. -/
def esCold : List Ev := esL ++ [.join [1] [9] [7], .fetch [1] [7] 1 5 false, .attempt 0 20]

/-- The connection of the consumer ends while the storage task reads. -/
def esAborted : List Ev :=
  esCold ++ [.abort 0, .disconnect [9] (fun _ => []), .storage 21, .join [1] [8] [6], .fetch [1] [6] 1 5 false]

end Ex

/-- **C54 does not hold**: after a connection has ended during a disk read of its consumer, the other members of the
group get empty answers, although messages 1, 2, 3 are in the files, nobody holds one and no read is in progress. -/
theorem C54_violated :
    let t := Ex.tL.run Ex.sum Ex.esAborted
    let v := viewAfter Ex.sum Ex.tL [1] Ex.esAborted
    v.members = [([6], [8])] ∧ (∀ s ∈ [1, 2, 3, 4], v.fate s = .fresh) ∧ v.next = 5
    ∧ (coldRead Ex.sum t.disk.segs 1 5).map (·.seq) = [1, 2, 3, 4]
    ∧ (t.fetches.map (fun x => (x.1, x.2.phase)) = [(1, .ready)])
    ∧ (t.step Ex.sum (.attempt 1 30)).2 matches .fetched ⟨[1], [6], 1, 5⟩ (.ok []) := by decide

section

variable {crc : Bytes → Nat} {base : Nat} {H : List Msg} {now : Nat} {t : Topic}

theorem delivered_in_log (hst : StartsWith crc base H now t) (name : Str) (s : Nat) (es : List Ev) (ho : Orderly now t es)
    (h : sinceSeek name s (t.trace crc es) ≠ 0) : s < base + (H ++ published t.log.next es).length := by
  have key : ∀ n es, es.length = n → Orderly now t es → sinceSeek name s (t.trace crc es) ≠ 0 →
      s < base + (H ++ published t.log.next es).length := by
    intro n
    induction n with
    | zero =>
      intro es he _ h
      rw [List.length_eq_zero_iff.1 he] at h
      exact absurd rfl h
    | succ n ih =>
      intro es he ho h
      obtain ⟨pre, e, hpe⟩ : ∃ pre e, es = pre ++ [e] := by
        refine ⟨es.take n, es[n], ?_⟩
        rw [List.take_append_getElem, List.take_of_length_le (by omega)]
      subst hpe
      have hlen : pre.length = n := by simpa using he
      have hpub : published t.log.next (pre ++ [e]) = published t.log.next pre ++ published (t.log.next + (published t.log.next pre).length) [e] :=
        published_append _ _ _
      have : Decidable (∃ b, e = .seek name b) := Classical.propDecidable _
      have htr : t.trace crc (pre ++ [e]) = t.trace crc pre ++ [(e, ((t.run crc pre).step crc e).2)] := by
        rw [trace_append]; rfl
      rw [htr, sinceSeek_snoc] at h
      split at h
      · exact absurd rfl h
      · rw [hpub, List.length_append, List.length_append]
        by_cases h0 : sinceSeek name s (t.trace crc pre) = 0
        · have hc : (((t.run crc pre).step crc e).2.gives name).count s ≠ 0 := by omega
          have hm : s ∈ ((t.run crc pre).step crc e).2.gives name := List.count_pos_iff.1 (by omega)
          cases ho' : ((t.run crc pre).step crc e).2 with
          | fetched q r =>
            rw [ho'] at hm
            cases r with
            | error _ => simp [Out.gives] at hm
            | ok ms =>
              simp only [Out.gives] at hm
              split at hm
              · obtain ⟨m, hm1, hm2⟩ := List.mem_map.1 hm
                have hin := C39_fetch hst pre e ho.prefix.fits q ms ho' m hm1
                obtain ⟨i, hi, hmi⟩ := List.getElem_of_mem hin
                have := C39_numbered (crc := crc) hst pre i m (by rw [List.getElem?_eq_getElem hi, hmi])
                rw [List.length_append] at hi
                omega
              · cases hm
          | _ => rw [ho'] at hm; simp [Out.gives] at hm
        · have := ih pre hlen ho.prefix h0
          rw [List.length_append] at this
          omega
  exact key es.length es rfl ho h

theorem finish_answered {t : Topic} {id at_ : Nat} {op : FetchOp} {ms : List Msg} (h1 : mget t.fetches id = some op)
    (h2 : op.phase = .answered ms) :
    (t.step crc (.finish id at_)).2 = .fetched op.query (t.finishCold op ms at_).2 := by
  simp only [Topic.step, h1, h2, Topic.endFetch]

/-- **C54**, the part that holds: if no fetch has ever been dropped during its disk read.

Consumer `c` is a member of the group; the group is owed message `s`; fewer messages than the limit are delivered and
unsettled; and no disk read of the group is in progress.  Then a fetch of `c` with a positive limit returns a message at
once; or it goes to the files, and then, whatever else happens that is not the group's business (`Quiet`), once the
storage task has handled the commands in its channel (`storages`), the fetch returns a message, or retention has in the
meantime removed a message that the group was owed.  (What is missing, besides dropped fetches: concurrent publishers
that reach the storage task in the wrong order, see `Orderly`.) -/
theorem C54_partial (hst : StartsWith crc base H now t) (hmd : 1 ≤ t.cfg.maxDeliveries) (name : Str) (es : List Ev)
    (hnd : (joinIds name es).Nodup) (ho : Orderly now t es) (hab : NoDiskAbort crc t es)
    (c conn : Str) (hc : (c, conn) ∈ (viewAfter crc t name es).members)
    (s : Nat) (hs : ((viewAfter crc t name es).fate s).owed = true) (hsn : s < (viewAfter crc t name es).next)
    (hroom : ∀ L : List Nat, L.Nodup → (∀ s ∈ L, ((viewAfter crc t name es).fate s).isHeld = true) →
      L.length < t.cfg.maxPending)
    (hidle : ∀ id op, mget (t.run crc es).fetches id = some op → op.group = name → op.onDisk = false)
    (limit : Nat) (hl : 0 < limit) (poll : Bool) (at_ : Nat) :
    let v := viewAfter crc t name es
    let q : Query := ⟨name, c, v.gen, limit⟩
    let id := (t.run crc es).nextOp
    let t1 := t.run crc (es ++ [.fetch name c v.gen limit poll])
    (∃ ms, (t1.step crc (.attempt id at_)).2 = .fetched q (.ok ms) ∧ ms ≠ [])
    ∨ ((t1.step crc (.attempt id at_)).2 matches .none) ∧
      ∀ es2 later, Orderly now t (es ++ .fetch name c v.gen limit poll :: .attempt id at_ :: es2) →
        Quiet crc name (t1.step crc (.attempt id at_)).1 es2 →
        (t1.step crc (.attempt id at_)).1.chan.length ≤ storages es2 →
        ∃ ms, (((t1.step crc (.attempt id at_)).1.run crc es2).step crc (.finish id later)).2 = .fetched q (.ok ms)
          ∧ (ms ≠ [] ∨ ∃ d, (v.fate d).owed = true ∧ d < v.next
              ∧ d < ((t1.step crc (.attempt id at_)).1.run crc es2).disk.headSeq) := by
  have hstarted : Started crc t := by
    obtain ⟨lossy, d, hd, ht⟩ := hst
    exact ⟨hmd, lossy, d, hd.good lossy, ht⟩
  have hids0 : IdsOk t := by obtain ⟨lossy, d, _, ht⟩ := hst; rw [ht]; exact IdsOk.build crc t.cfg lossy d
  have howner0 : ColdOwner t := by obtain ⟨lossy, d, _, ht⟩ := hst; rw [ht]; exact ColdOwner.build crc t.cfg lossy d
  intro v q id t1
  obtain ⟨J, hr, hi, hcfg, _, _⟩ := hstarted.reach name es hnd
  obtain ⟨hi0, hd0, _, hb1⟩ := hst.inv
  obtain ⟨f, W, _, _, hd⟩ := hd0.run hi0 es ho
  -- the group
  obtain ⟨g, hg⟩ : ∃ g, mget (t.run crc es).groups name = some g := by
    cases hm : mget (t.run crc es).groups name with
    | some g => exact ⟨g, rfl⟩
    | none => have := (hr.unk hm).2; rw [this] at hc; cases hc
  have hgr := hr.grp g hg
  have hcm : mhas g.members c = true := hgr.mhas.2 ⟨conn, hc⟩
  have hcold : g.fetchingCold = false := by
    cases hx : g.fetchingCold with
    | false => rfl
    | true =>
      obtain ⟨i, op, h1, h2, h3⟩ := howner0.run hids0 hab name g hg hx
      rw [hidle i op h1 h2] at h3; cases h3
  have hb : g.pending.length < g.maxPending := by
    have hk := hroom (mkeys g.pending) hgr.inv.core.wf (fun x hx => by
      obtain ⟨p, hp⟩ := Option.isSome_iff_exists.1 (mget_isSome.2 hx)
      have := (hgr.inv.core.held x p.consumer p.at_ p.count).2 (by rw [hp])
      rw [this]; rfl)
    rw [hgr.mp, hcfg]
    simpa [mkeys] using hk
  -- what is due
  have hdue : g.due < (t.run crc es).log.next := by
    unfold Group.due
    cases hq : g.redeliver with
    | nil =>
      show g.next < _
      rw [← hr.next]
      have hfs : (viewAfter crc t name es).fate s = .fresh := by
        cases hf : (viewAfter crc t name es).fate s with
        | fresh => rfl
        | waiting k =>
          have := ((hgr.inv.core.waiting s k).1 hf).1
          rw [hq] at this; cases this
        | _ => rw [hf] at hs; cases hs
      have := (hgr.inv.core.fresh s).1 hfs
      omega
    | cons d qs =>
      have hmem : d ∈ g.redeliver := by rw [hq]; exact List.mem_cons_self
      obtain ⟨k, hk⟩ := hgr.inv.core.redAtt d hmem
      have hw := (hgr.inv.core.waiting d k).2 ⟨hmem, hk⟩
      have hcnt := (counted_unknown hstarted (name := name) d es hnd).1
      rw [hw] at hcnt
      have := delivered_in_log hst name d es ho (by have := hcnt.1; have := hcnt.2.1; omega)
      rw [hd.next]
      exact this
  -- after the request has arrived
  have hrun1 : t1 = ((t.run crc es).step crc (.fetch name c v.gen limit poll)).1 := by
    show t.run crc (es ++ _) = _
    rw [run_append]; rfl
  have hj1 : joinIds name (es ++ [.fetch name c v.gen limit poll]) = joinIds name es := by
    rw [joinIds_append]; simp [joinIds]
  obtain ⟨J1, hr1, hi1, _, _, _⟩ := hstarted.reach name (es ++ [.fetch name c v.gen limit poll]) (by rw [hj1]; exact hnd)
  have hpub1 : published t.log.next (es ++ [.fetch name c v.gen limit poll]) = published t.log.next es := by
    rw [published_append]; simp [published]
  have ht1 : t1 = { t.run crc es with
      nextOp := id + 1
      fetches := mset (t.run crc es).fetches id { group := name, consumer := c, gen := v.gen, limit, poll, token := g.epoch, phase := .ready } } := by
    rw [hrun1]
    simp only [Topic.step, hg]
    rfl
  have hg1 : mget t1.groups name = some g := by rw [ht1]; exact hg
  have hop1 : mget t1.fetches id = some { group := name, consumer := c, gen := v.gen, limit, poll, token := g.epoch, phase := .ready } := by
    rw [ht1]; exact mget_mset_same _ _ _
  have hlog1 : t1.log = (t.run crc es).log := by rw [ht1]
  rcases attempt_due (crc := crc) hi1 hr1 hg1 hcm hcold hb (by rw [show t.run crc (es ++ [.fetch name c v.gen limit poll]) = t1 from rfl, hlog1]; exact hdue)
      hop1 (.inl rfl) rfl rfl hgr.gen.symm hl at_ with h | ⟨h1, h2, h3, h4, h5⟩
  · exact .inl h
  right
  rw [show t.run crc (es ++ [.fetch name c v.gen limit poll]) = t1 from rfl] at h1 h2 h3 h4 h5
  refine ⟨by rw [h1], ?_⟩
  intro es2 later ho2 hq2 hst2
  -- the invariant after the attempt
  have happ : es ++ Ev.fetch name c v.gen limit poll :: Ev.attempt id at_ :: es2
      = (es ++ [.fetch name c v.gen limit poll, .attempt id at_]) ++ es2 := by simp
  rw [happ] at ho2
  have hrun2 : t.run crc (es ++ [.fetch name c v.gen limit poll, .attempt id at_]) = (t1.step crc (.attempt id at_)).1 := by
    rw [run_append, hrun1]; rfl
  obtain ⟨f2, W2, _, _, hd2⟩ := hd0.run hi0 _ ho2.prefix
  rw [hrun2] at hd2
  have hi2 := hi0.run crc (es ++ [.fetch name c v.gen limit poll, .attempt id at_])
  rw [hrun2] at hi2
  have hids1 : IdsOk (t.run crc es) := hids0.run crc es
  have hfr := step_dframe t1 crc (.attempt id at_) rfl
  have hn2 : id < (t1.step crc (.attempt id at_)).1.nextOp := by
    have hw := (step_waits crc t1 (.attempt id at_)).next
    have : t1.nextOp = id + 1 := by rw [ht1]
    omega
  have hstart : ColdOk name id g.due { group := name, consumer := c, gen := v.gen, limit, poll, token := g.epoch, phase := .ready }
      { g with fetchingCold := true } t1.log.head (t1.step crc (.attempt id at_)).1 f2 := by
    refine ⟨h3, by rw [hfr.log], hn2, ?_, ?_, .disk, ?_, rfl, fun ms h => by cases h⟩
    · have hram := hd2.ram
      have hge := hgr.inv.core.due_ge
      rw [hr.head, ← hlog1] at hge
      rw [hfr.log] at hram
      omega
    · intro fr l hc'
      rw [h5] at hc'
      rcases List.mem_append.1 hc' with hc' | hc'
      · have hch : t1.chan = (t.run crc es).chan := by rw [ht1]
        rw [hch] at hc'
        have := hids1.cold _ _ _ hc'
        exact absurd this (Nat.lt_irrefl _)
      · simp only [List.mem_singleton, SCmd.cold.injEq, true_and] at hc'
        exact hc'
    · rw [h4, mget_mset_same]
  have hcoming : Coming id (storages es2) (t1.step crc (.attempt id at_)).1 := by
    refine ⟨_, by rw [h4]; exact mget_mset_same _ _ _, .inr ⟨rfl, t1.chan.length, g.due, limit, ?_, ?_⟩⟩
    · rw [h5] at hst2; simp at hst2; omega
    · rw [h5]; simp
  obtain ⟨f3, W3, ⟨hP1, _, hP3⟩, hd3⟩ := DInv.inductR
    (P := fun es t f => ColdOk name id g.due { group := name, consumer := c, gen := v.gen, limit, poll, token := g.epoch, phase := .ready }
      { g with fetchingCold := true } t1.log.head t f ∧ Quiet crc name t es ∧ Coming id (storages es) t)
    hd2 hi2 es2 ⟨hstart, hq2, hcoming⟩
    (fun H' clock t f W e es f' hP hdi hf hp => by
      obtain ⟨p1, p2, p3⟩ := hP
      refine ⟨p1.step rfl hl hdi p2.1 hf hp, p2.2, ?_⟩
      have := p3.step (crc := crc) p1.old p2.1 (fun op hop => by
        obtain ⟨ph, h, _⟩ := p1.there
        rw [h] at hop; cases hop; rfl)
      have hs : storages (e :: es) - storages [e] = storages es := by
        cases e <;> simp [storages]
      rw [hs] at this
      exact this)
    (by
      rw [← hrun2]
      refine ho2.suffix ?_
      rw [hrun2, hd2.next, hd0.next, List.length_append]; omega)
  have hj3 : joinIds name ((es ++ [.fetch name c v.gen limit poll, .attempt id at_]) ++ es2) = joinIds name es := by
    rw [joinIds_append, joinIds_append, hq2.ids]; simp [joinIds]
  obtain ⟨J3, hr3, _, _, _, _⟩ := hstarted.reach name ((es ++ [.fetch name c v.gen limit poll, .attempt id at_]) ++ es2) (by rw [hj3]; exact hnd)
  rw [run_append, hrun2] at hr3
  rcases hP1.finish (crc := crc) hr3 rfl rfl hgr.gen.symm hcm hb rfl later with h | ⟨ms, h6, h7⟩
  · exfalso
    obtain ⟨op, h8, h9⟩ := hP3
    rcases h9 with ⟨ms, h9⟩ | ⟨_, i, _, _, h9, _⟩
    · rw [finish_answered h8 h9] at h; cases h
    · exact absurd h9 (Nat.not_lt_zero _)
  · refine ⟨ms, h6, ?_⟩
    rcases h7 with h7 | h7
    · exact .inl h7
    · refine .inr ⟨g.due, ?_, ?_, ?_⟩
      · rcases hgr.inv.core.due_owed with h | ⟨k, h⟩ <;> rw [h] <;> rfl
      · rw [hr.next]; exact hdue
      · rw [hd3.disk.headSeq]; exact h7

end

/-! ### Examples -/

theorem Ex.noDiskAbort {crc : Bytes → Nat} (es : List Ev) : ∀ t : Topic, (∀ id, Ev.abort id ∉ es) → NoDiskAbort crc t es := by
  induction es with
  | nil => intro t _; trivial
  | cons e es ih =>
    intro t h
    exact ⟨fun id op he => absurd (he ▸ List.mem_cons_self) (h id), ih _ (fun id hm => h id (List.mem_cons_of_mem _ hm))⟩

/-- Messages 1 to 3 are in the files only, and a consumer has joined. -/
def Ex.esMember : List Ev := Ex.esL ++ [.join [1] [9] [7]]

theorem Ex.orderlyMember (es : List Ev) (h1 : ∀ i, Ev.send i ∉ es) (h2 : ∀ n, published n es = []) :
    Orderly 0 Ex.tL (Ex.esMember ++ es) := by
  refine Ex.orderlyL _ (fun i hi => ?_) (fun m hm => ?_)
  · rcases List.mem_append.1 hi with hi | hi
    · simp [Ex.esMember, Ex.esL] at hi; exact hi
    · exact absurd hi (h1 i)
  · rw [published_append, h2, List.append_nil] at hm
    simp [Ex.esMember, Ex.esL, published] at hm
    rcases hm with rfl | rfl | rfl | rfl <;> simp [Fits]

/-- The hypotheses of `C54_partial` hold, its second case arises, and the fetch returns three messages. -/
example :
    let t1 := Ex.tL.run Ex.sum (Ex.esMember ++ [.fetch [1] [7] 1 5 false])
    let t2 := (t1.step Ex.sum (.attempt 0 20)).1
    ((t1.step Ex.sum (.attempt 0 20)).2 matches .none)
    ∧ (((t2.run Ex.sum [.publish 30 [5], .storage 21]).step Ex.sum (.finish 0 22)).2
        matches .fetched ⟨[1], [7], 1, 5⟩ (.ok [⟨1, 5, [1]⟩, ⟨2, 6, [2]⟩, ⟨3, 7, [3]⟩]))
    ∧ ∃ ms, ((t2.run Ex.sum [.storage 21]).step Ex.sum (.finish 0 22)).2 = .fetched ⟨[1], [7], 1, 5⟩ (.ok ms)
        ∧ (ms ≠ [] ∨ ∃ d, ((viewAfter Ex.sum Ex.tL [1] Ex.esMember).fate d).owed = true
          ∧ d < (viewAfter Ex.sum Ex.tL [1] Ex.esMember).next ∧ d < (t2.run Ex.sum [.storage 21]).disk.headSeq) := by
  intro t1 t2
  refine ⟨by decide, by decide, ?_⟩
  have hfate : ∀ s, (viewAfter Ex.sum Ex.tL [1] Ex.esMember).fate s = if 1 ≤ s then .fresh else .skipped := fun s => rfl
  have ho : Orderly 0 Ex.tL Ex.esMember := by
    simpa using Ex.orderlyMember [] (by simp) (fun n => rfl)
  have := C54_partial Ex.startsL (by decide) [1] Ex.esMember (by decide) ho (Ex.noDiskAbort _ _ (by simp [Ex.esMember, Ex.esL]))
    [7] [9] (by decide) 1 rfl (by decide) (fun L hL hh => by
      cases L with
      | nil => decide
      | cons x L =>
        have := hh x List.mem_cons_self
        rw [hfate] at this
        split at this <;> cases this)
    (fun id op h => by cases h) 5 (by decide) false 20
  have hgen : (viewAfter Ex.sum Ex.tL [1] Ex.esMember).gen = 1 := by decide
  have hid : (Ex.tL.run Ex.sum Ex.esMember).nextOp = 0 := by decide
  simp only [hgen, hid] at this
  rcases this with h | h
  · obtain ⟨ms, h, _⟩ := h
    have hnone : (match (t1.step Ex.sum (.attempt 0 20)).2 with | .none => true | _ => false) = true := by decide
    rw [show (t1.step Ex.sum (.attempt 0 20)).2 = _ from h] at hnone
    cases hnone
  · exact h.2 [.storage 21] 22 (Ex.orderlyMember [.fetch [1] [7] 1 5 false, .attempt 0 20, .storage 21] (by simp) (fun n => rfl))
      ⟨fun h => h, trivial⟩ (by decide)

end Verif.Stream
