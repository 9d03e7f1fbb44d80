import Verif.Model.StreamWait
import Verif.Proofs.StreamProgress
import Verif.Proofs.StreamAny

/-!
# Long-polling fetches
-/

namespace Verif.Stream

open Group

variable {crc : Bytes → Nat} {base : Nat} {H : List Msg} {now : Nat} {t : Topic}

theorem StartsWith.started (h : StartsWith crc base H now t) (hmd : 1 ≤ t.cfg.maxDeliveries) : Started crc t := by
  obtain ⟨lossy, d, hd, ht⟩ := h
  exact ⟨hmd, lossy, d, hd.good lossy, ht⟩

theorem snoc_split {α : Type} {n : Nat} {l : List α} (h : l.length = n + 1) : ∃ pre e, l = pre ++ [e] ∧ pre.length = n := by
  refine ⟨l.take n, l[n], ?_, by rw [List.length_take]; omega⟩
  rw [List.take_append_getElem, List.take_of_length_le (by omega)]

/-! ### Only published messages are delivered -/

/-- What has not been published is neither held nor waiting for redelivery. -/
def Above (v : View) : Prop := ∀ s, v.next ≤ s → (v.fate s).isHeld = false ∧ ∀ k, v.fate s ≠ .waiting k

theorem run_next (crc : Bytes → Nat) (t : Topic) (es : List Ev) :
    (t.run crc es).log.next = t.log.next + (published t.log.next es).length := by
  induction es generalizing t with
  | nil => rfl
  | cons e es ih =>
    rw [show e :: es = [e] ++ es from rfl, published_append, List.length_append]
    simp only [List.cons_append, List.nil_append, Topic.run]
    rw [ih, step_next]
    omega

theorem published_numbered (es : List Ev) : ∀ n : Nat, Numbered n (published n es) := by
  induction es with
  | nil => intro n i m h; simp [published] at h
  | cons e es ih =>
    intro n
    cases e <;> simp only [published] <;> try exact ih n
    intro i m h
    cases i with
    | zero => simp only [List.getElem?_cons_zero, Option.some.injEq] at h; rw [← h]; rfl
    | succ i =>
      simp only [List.getElem?_cons_succ] at h
      have := ih (n + 1) i m h
      omega

theorem delivered_below (hst : StartsWith crc base H now t) (es : List Ev) (e : Ev)
    (hf : ∀ m ∈ published t.log.next es, Fits m) {name : Str} {s : Nat} (hs : s ∈ given crc t name es e) :
    s < (t.run crc es).log.next := by
  obtain ⟨_, hd, _, _⟩ := hst.inv
  have hstored := ((Stored.start hst).mono (Q := fun m => m.seq < (t.run crc es).log.next) (fun m hm => by
    obtain ⟨i, hi, hmi⟩ := List.getElem_of_mem hm
    have := hd.num i m (by rw [List.getElem?_eq_getElem hi, hmi])
    rw [run_next, hd.next]; omega)).run es (fun m hm => ⟨hf m hm, by
      obtain ⟨i, hi, hmi⟩ := List.getElem_of_mem hm
      have : Numbered t.log.next (published t.log.next es) := published_numbered _ _
      have := this i m (by rw [List.getElem?_eq_getElem hi, hmi])
      rw [run_next]; omega⟩)
  unfold given at hs
  cases ho : ((t.run crc es).step crc e).2 with
  | fetched q r =>
    rw [ho] at hs
    cases r with
    | error _ => simp [Out.gives] at hs
    | ok ms =>
      simp only [Out.gives] at hs
      split at hs
      · obtain ⟨m, hm1, hm2⟩ := List.mem_map.1 hs
        rw [← hm2]; exact hstored.fetched ho m hm1
      · cases hs
  | _ => rw [ho] at hs; simp [Out.gives] at hs

theorem published_prefix_fits {n : Nat} {a b : List Ev} (h : ∀ m ∈ published n (a ++ b), Fits m) :
    ∀ m ∈ published n a, Fits m := fun m hm => h m (by rw [published_append]; exact List.mem_append_left _ hm)

theorem nothing_above (hst : StartsWith crc base H now t) (hmd : 1 ≤ t.cfg.maxDeliveries) (name : Str) (es : List Ev)
    (hnd : (joinIds name es).Nodup) (hf : ∀ m ∈ published t.log.next es, Fits m) : Above (viewAfter crc t name es) := by
  have hs := hst.started hmd
  generalize hn : es.length = n
  induction n generalizing es with
  | zero =>
    rw [List.length_eq_zero_iff.1 hn]
    intro s _
    simp only [viewAfter, View.after, View.start, Topic.trace, List.foldl_nil]
    split
    · split <;> exact ⟨rfl, fun k h => by cases h⟩
    · exact ⟨rfl, fun k h => by cases h⟩
  | succ n ih =>
    obtain ⟨pre, e, rfl, hl⟩ := snoc_split hn
    have hnd' := joinIds_prefix hnd
    have ih := ih pre hnd' (published_prefix_fits hf) hl
    obtain ⟨J, hr, _, _, _, _⟩ := hs.reach name pre hnd'
    obtain ⟨J', hr', _, _, _, _⟩ := hs.reach name (pre ++ [e]) hnd
    have heff := hs.effect name pre e hnd'
    intro s hsn
    have hle : (viewAfter crc t name pre).next ≤ s := by
      rw [hr'.next, run_append] at hsn
      simp only [Topic.run] at hsn
      rw [step_next] at hsn
      rw [hr.next]; omega
    by_cases hg : s ∈ given crc t name pre e
    · have := delivered_below hst pre e (published_prefix_fits hf) hg
      rw [hr.next] at hle; omega
    have hfs : ∀ f : Fate, f = .fresh ∨ f = .skipped → f.isHeld = false ∧ ∀ k, f ≠ .waiting k := by
      rintro f (rfl | rfl) <;> exact ⟨rfl, fun k h => by cases h⟩
    by_cases hsk : ∃ b, e = .seek name b
    · obtain ⟨b, rfl⟩ := hsk
      refine hfs _ ?_
      rw [viewAfter_snoc]
      simp only [View.step, if_true, View.obs, List.foldl_cons, List.foldl_nil, fates, Fate.step]
      generalize (if b = true then (viewAfter crc t name pre).next else (viewAfter crc t name pre).head) = x
      split
      · exact .inl rfl
      · exact .inr rfl
    · by_cases hk : (viewAfter crc t name pre).known = true ∨ ∀ conn c, e ≠ .join name conn c
      · rcases heff.keeps (fun b hb => hsk ⟨b, hb⟩) hk hg with h | ⟨_, _, _, _, _, h⟩ | ⟨_, _, _, h, _⟩ | ⟨_, _, _, _, h⟩
        · rw [h]; exact ih s hle
        · rw [h]; exact ⟨rfl, fun k h => by cases h⟩
        · have := (ih s hle).1; rw [h] at this; cases this
        · rw [h]; exact ⟨rfl, fun k h => by cases h⟩
      · simp only [not_or, Bool.not_eq_true] at hk
        obtain ⟨hk1, hk2⟩ := hk
        have : ∃ conn c, e = .join name conn c := by
          apply Classical.byContradiction
          intro hx
          exact hk2 (fun conn c hc => hx ⟨conn, c, hc⟩)
        obtain ⟨conn, c, rfl⟩ := this
        refine hfs _ ?_
        rw [viewAfter_snoc]
        simp only [View.step, if_true, hk1, Bool.false_eq_true, if_false, View.obs, List.foldl_cons, List.foldl_nil, fates, Fate.step]
        split
        · exact .inl rfl
        · exact .inr rfl

/-! ### Nothing is owed -/

/-- Everything that has been published is delivered or settled for the group. -/
def NothingOwed (v : View) : Prop := v.known = true ∧ ∀ s, s < v.next → (v.fate s).owed = false

/-- An attempt that leads to a wait has found nothing. -/
theorem wait_nothing {name : Str} {v : View} {J : List (Str × Str)} (hi : TInv t) (hr : Rel name t v J) (ha : Above v)
    {c : Str} {gen limit at_ : Nat} (hl : 0 < limit) (h : (t.tryFetch name c gen limit at_).2 = .ok .wait) :
    NothingOwed v := by
  unfold Topic.tryFetch at h
  split at h
  · cases h
  · next g hg =>
    have hgr := hr.grp g hg
    have hclamp : g.clampHead t.log.head = (g, false) := by rw [← hr.head]; exact hgr.clamped
    simp only [hclamp] at h
    split at h
    · cases h
    · next hbp =>
      have hb : g.pending.length < g.maxPending := by
        unfold Group.backpressured at hbp; simpa using hbp
      split at h
      · cases h
      · next msgs hfe =>
        simp only [Except.ok.injEq] at h
        have hnf : g.nextFetchSeq t.log.head = g.due := by rw [← hr.head]; exact hgr.inv.core.nextFetch
        unfold Group.fetch at h hfe
        split at hfe
        · cases hfe
        · next hin =>
          have hin' : g.inactive c gen = none := hin
          simp only [Except.ok.injEq] at hfe
          simp only [hin] at h
          have hcm : mhas g.members c = true := by
            unfold Group.inactive at hin'
            split at hin'
            · cases hin'
            · split at hin'
              · cases hin'
              · next hx => simpa using hx
          rw [show (t.ask c at_).head = t.log.head from rfl, hclamp] at hfe h
          subst hfe
          rcases deliver_due (show (t.ask c at_).head = v.head from hr.head.symm)
            (show WindowOk (t.ask c at_).log (t.ask c at_).ramStart from hi.log.win) g v.fate limit hgr.inv hcm hl hb with hne | ⟨heq, hnone⟩
          · unfold Topic.decideFetch at h
            rw [if_pos (by simpa using hne)] at h
            cases h
          · rw [heq] at h
            unfold Topic.decideFetch at h
            rw [if_neg (by simp), hnf] at h
            split at h
            · cases h
            · split at h
              · cases h
              · next hx =>
                simp only [Bool.and_eq_true, decide_eq_true_eq] at hx
                have hlen := hi.log.len
                have hdue : t.log.next ≤ g.due := by
                  apply Nat.le_of_not_lt
                  intro hlt
                  refine hx ⟨hlt, ?_⟩
                  unfold readFromLog at hnone
                  have e1 : (t.ask c at_).log = t.log.msgs := rfl
                  have e2 : (t.ask c at_).ramStart = t.log.ramStart := rfl
                  rw [e1, e2] at hnone
                  split at hnone
                  · next hc =>
                    simp only [Bool.or_eq_true, decide_eq_true_eq, List.isEmpty_iff] at hc
                    rcases hc with hc | hc
                    · exact hc
                    · rw [hc, List.length_nil] at hlen; omega
                  · next hc =>
                    simp only [Bool.or_eq_true, decide_eq_true_eq, List.isEmpty_iff, not_or] at hc
                    have hn := List.getElem?_eq_none_iff.1 hnone
                    omega
                have hred : g.redeliver = [] := by
                  unfold Group.due at hdue
                  cases hq : g.redeliver with
                  | nil => rfl
                  | cons s q =>
                    rw [hq] at hdue
                    simp only [List.head?_cons, Option.getD_some] at hdue
                    have hm : s ∈ g.redeliver := by rw [hq]; exact List.mem_cons_self
                    obtain ⟨k, hk⟩ := hgr.inv.core.redAtt s hm
                    exact absurd ((hgr.inv.core.waiting s k).2 ⟨hm, hk⟩) ((ha s (by rw [hr.next]; exact hdue)).2 k)
                have hnx : t.log.next ≤ g.next := by
                  unfold Group.due at hdue; rw [hred] at hdue; simpa using hdue
                refine ⟨by rw [hr.known]; simp [Verif.mhas, hg], fun s hs => ?_⟩
                cases hfs : v.fate s with
                | fresh => have := (hgr.inv.core.fresh s).1 hfs; rw [hr.next] at hs; omega
                | waiting k => have := ((hgr.inv.core.waiting s k).1 hfs).1; rw [hred] at this; cases this
                | _ => rfl

/-! ### What does not notify -/

theorem drop_quiet (order : Str → List Nat) (bs : List (Str × Str)) : ∀ (t : Topic), dropNotifies order t bs = false →
    ∀ b ∈ bs, ∀ g, mget t.groups b.1 = some g → mget g.members b.2 = none := by
  induction bs with
  | nil => intro t _ b hb; cases hb
  | cons b0 bs ih =>
    intro t h b hb g hg
    simp only [dropNotifies, Bool.or_eq_false_iff] at h
    obtain ⟨h1, h2⟩ := h
    have hkey : ∀ g, mget t.groups b0.1 = some g → mget g.members b0.2 = none := by
      intro g hg
      rw [hg] at h1
      simp only [Group.removeMember] at h1
      split at h1
      · next hm => exact hm
      · cases h1
    rcases List.mem_cons.1 hb with rfl | hb
    · exact hkey g hg
    · refine ih _ h2 b hb g ?_
      have : Topic.dropBinding order t b0 = t := by
        unfold Topic.dropBinding
        split
        · rfl
        · next g0 hg0 =>
          have hn : (g0.removeMember b0.2 (order b0.1)).2 = none := by
            simp only [Group.removeMember]; rw [hkey g0 hg0]
          rw [hn]
      rw [this]; exact hg

/-- Events that neither publish nor notify leave a group that is owed nothing as it is. -/
theorem quiet_step {name : Str} {v v' : View} {J : List (Str × Str)} (hr : Rel name t v J) {e : Ev}
    (heff : Effect t.cfg.maxDeliveries t.cfg.ackWait name v (e, (t.step crc e).2) v') (hnext : v'.next = v.next)
    (hq : notifies t e = false) (h : NothingOwed v) : NothingOwed v' := by
  have hns : ∀ b, e ≠ .seek name b := fun b hb => by subst hb; cases hq
  refine ⟨heff.known h.1, fun s hs => ?_⟩
  rw [hnext] at hs
  have hv := h.2 s hs
  by_cases hg : s ∈ (t.step crc e).2.gives name
  · rcases (heff.gives_legal hg).1 with h1 | ⟨k, h1, _⟩
    · rw [h1] at hv; cases hv
    · rw [h1] at hv; cases hv
  · rcases heff.keeps hns (.inl h.1) hg with h1 | ⟨_, _, _, _, _, h1⟩ | ⟨c, at_, k, h1, _, h2⟩ | ⟨_, _, _, _, h1⟩
    · rw [h1]; exact hv
    · rw [h1]; rfl
    · exfalso
      obtain ⟨g, hgg⟩ : ∃ g, mget t.groups name = some g := by
        have := h.1
        rw [hr.known] at this
        exact Option.isSome_iff_exists.1 this
      have hgr := hr.grp g hgg
      have hp := (hgr.inv.core.held s c at_ k).1 h1
      rcases h2 with ⟨gen, order, rfl, ho⟩ | ⟨conn, order, rfl, hm⟩ | ⟨at', order, rfl, hlate⟩
      · simp only [notifies] at hq
        simp only [Topic.step] at ho
        rw [ho] at hq
        cases hq
      · have hb := hr.bind c conn hm
        simp only [notifies] at hq
        cases hcl : mget t.clients conn with
        | none => rw [hcl] at hb; cases hb
        | some bs =>
          rw [hcl] at hb hq
          simp only [Option.getD_some] at hb hq
          have := drop_quiet order bs _ hq (name, c) hb g hgg
          rw [(hgr.mem c conn).2 hm] at this
          cases this
      · simp only [notifies, List.any_eq_false] at hq
        have hx := hq (name, g) (mget_some_mem hgg)
        simp only [checkRedelivery] at hx
        have hne : (g.expired at').isEmpty = false := by
          have : s ∈ g.expired at' := by
            unfold Group.expired
            have hmem := mget_some_mem hp
            refine List.mem_map.2 ⟨(s, ⟨c, at_, k⟩), List.mem_filter.2 ⟨hmem, ?_⟩, rfl⟩
            simp only [decide_eq_true_eq]
            rw [hgr.aw]
            exact hlate
          cases he : g.expired at' with
          | nil => rw [he] at this; cases this
          | cons _ _ => rfl
        rw [hne] at hx
        simp at hx
    · rw [h1]; rfl

/-! ### Steps -/

/-- Only an attempt puts a fetch to sleep. -/
theorem waiting_before {e : Ev} {id : Nat} {op' : FetchOp} (h : mget (t.step crc e).1.fetches id = some op')
    (hw : op'.phase = .waiting) :
    (mget t.fetches id = some op' ∧ ∀ at_, e ≠ .attempt id at_)
    ∨ ∃ at_ op, e = .attempt id at_ ∧ mget t.fetches id = some op ∧ op.poll = true ∧ op' = { op with phase := .waiting }
      ∧ (t.tryFetch op.group op.consumer op.gen op.limit at_).2 = .ok .wait := by
  have same : ∀ t' : Topic, t'.fetches = t.fetches → mget t'.fetches id = some op' → mget t.fetches id = some op' :=
    fun t' h1 h2 => by rw [h1] at h2; exact h2
  have del : ∀ (m : List (Nat × FetchOp)) (i : Nat), mget (mdel m i) id = some op' → mget m id = some op' ∧ id ≠ i := by
    intro m i h1
    rw [mget_mdel] at h1
    split at h1
    · cases h1
    · next hne => exact ⟨h1, hne⟩
  cases e with
  | publish ts p => exact .inl ⟨h, fun _ hx => by cases hx⟩
  | send i =>
    refine .inl ⟨?_, fun _ hx => by cases hx⟩
    simp only [Topic.step] at h
    split at h <;> exact h
  | join g conn c => exact .inl ⟨h, fun _ hx => by cases hx⟩
  | leave g c gen order =>
    refine .inl ⟨?_, fun _ hx => by cases hx⟩
    simp only [Topic.step, Topic.leave] at h
    split at h
    · exact h
    · split at h
      · exact h
      · split at h <;> exact h
  | disconnect conn order =>
    refine .inl ⟨?_, fun _ hx => by cases hx⟩
    simp only [Topic.step, Topic.disconnect] at h
    split at h
    · exact h
    · obtain ⟨_, h2, _, _⟩ := dropBindings_waits order ‹_› { t with clients := mdel t.clients conn }
      rw [h2] at h; exact h
  | fetch g c gen l p =>
    refine .inl ⟨?_, fun _ hx => by cases hx⟩
    simp only [Topic.step] at h
    split at h
    · exact h
    · simp only [mget_mset] at h
      split at h
      · cases h; cases hw
      · exact h
  | attempt i at_ =>
    simp only [Topic.step, Topic.attempt] at h
    split at h
    · next hn =>
      by_cases hi : id = i
      · subst hi; rw [hn] at h; cases h
      · exact .inl ⟨h, fun x hx => by cases hx; exact hi rfl⟩
    · next op hop =>
      obtain ⟨_, hf, _, _⟩ := tryFetch_waits t op.group op.consumer op.gen op.limit at_
      split at h
      · next hp =>
        by_cases hi : id = i
        · subst hi; rw [hop] at h; cases h; exact absurd hw hp.2
        · exact .inl ⟨h, fun x hx => by cases hx; exact hi rfl⟩
      · have hend : ∀ r, mget (((t.tryFetch op.group op.consumer op.gen op.limit at_).1.endFetch i op r).1).fetches id = some op' →
            mget t.fetches id = some op' ∧ ∀ x, Ev.attempt i at_ ≠ .attempt id x := by
          intro r hr
          simp only [Topic.endFetch, hf] at hr
          obtain ⟨h1, h2⟩ := del _ _ hr
          exact ⟨h1, fun x hx => by cases hx; exact h2 rfl⟩
        split at h
        · exact .inl (hend _ h)
        · exact .inl (hend _ h)
        · simp only [mget_mset] at h
          split at h
          · cases h; cases hw
          · next hi => exact .inl ⟨h, fun x hx => by cases hx; exact hi rfl⟩
        · next hwait =>
          split at h
          · next hpoll =>
            simp only [mget_mset] at h
            split at h
            · next hi =>
              subst hi
              simp only [Option.some.injEq] at h
              exact .inr ⟨at_, op, rfl, hop, hpoll, h.symm, hwait⟩
            · next hi => exact .inl ⟨h, fun x hx => by cases hx; exact hi rfl⟩
          · exact .inl (hend _ h)
  | giveUp i =>
    refine .inl ⟨?_, fun _ hx => by cases hx⟩
    simp only [Topic.step] at h
    split at h
    · exact h
    · split at h
      · exact (del _ _ h).1
      · exact h
  | finish i at_ =>
    refine .inl ⟨?_, fun _ hx => by cases hx⟩
    simp only [Topic.step] at h
    split at h
    · exact h
    · next op hop =>
      split at h
      · next ms hms =>
        obtain ⟨_, h2, _, _⟩ := finishCold_waits t op ms at_
        simp only [Topic.endFetch, h2] at h
        exact (del _ _ h).1
      · exact h
  | abort i => exact .inl ⟨(del _ _ h).1, fun _ hx => by cases hx⟩
  | ack g c gen s =>
    refine .inl ⟨?_, fun _ hx => by cases hx⟩
    simp only [Topic.step, Topic.ack] at h
    split at h
    · exact h
    · split at h <;> exact h
  | seek g b => exact .inl ⟨h, fun _ hx => by cases hx⟩
  | tick at_ order => exact .inl ⟨h, fun _ hx => by cases hx⟩
  | evictLoad => exact .inl ⟨h, fun _ hx => by cases hx⟩
  | evictRun =>
    refine .inl ⟨?_, fun _ hx => by cases hx⟩
    simp only [Topic.step] at h
    split at h <;> exact h
  | save order =>
    refine .inl ⟨?_, fun _ hx => by cases hx⟩
    simp only [Topic.step, Topic.saveGroups] at h
    split at h <;> exact h
  | retainSend =>
    refine .inl ⟨?_, fun _ hx => by cases hx⟩
    simp only [Topic.step] at h
    split at h <;> exact h
  | retainDone =>
    refine .inl ⟨?_, fun _ hx => by cases hx⟩
    simp only [Topic.step] at h
    split at h
    · unfold Topic.applyOutcome at h
      split at h <;> exact h
    · exact h
  | read f l =>
    refine .inl ⟨?_, fun _ hx => by cases hx⟩
    simp only [Topic.step, Topic.startRead] at h
    split at h <;> exact h
  | readDone i =>
    refine .inl ⟨?_, fun _ hx => by cases hx⟩
    simp only [Topic.step] at h
    split at h <;> exact h
  | storage at_ =>
    refine .inl ⟨?_, fun _ hx => by cases hx⟩
    simp only [Topic.step] at h
    split at h
    · exact h
    · next c cs _ =>
      cases c with
      | cold i fr l =>
        simp only [Topic.handle, mget_mupd] at h
        split at h
        · cases hr : mget t.fetches id with
          | none => rw [hr] at h; cases h
          | some op =>
            rw [hr] at h
            simp only [Option.map_some, Option.some.injEq] at h
            split at h
            · rw [← h] at hw; cases hw
            · rw [h]
        · exact h
      | _ => exact h
  | flush at_ =>
    refine .inl ⟨?_, fun _ hx => by cases hx⟩
    simp only [Topic.step, Topic.flushAll] at h
    split at h <;> exact h
  | leak a b c => exact .inl ⟨h, fun _ hx => by cases hx⟩
  | closeHandle a b => exact .inl ⟨h, fun _ hx => by cases hx⟩

/-- The publishes that have not notified yet. -/
theorem sends_step (e : Ev) :
    (t.step crc e).1.sends.length = t.sends.length
    ∨ (∃ ts p, e = .publish ts p) ∧ (t.step crc e).1.sends.length = t.sends.length + 1
    ∨ notifies t e = true := by
  by_cases hw : e.writes = false
  · left; rw [(step_dframe t crc e hw).sends]
  cases e with
  | publish ts p => exact .inr (.inl ⟨⟨ts, p, rfl⟩, by simp [Topic.step]⟩)
  | send i =>
    simp only [Topic.step, notifies]
    cases h : t.sends[i]? with
    | none => exact .inl rfl
    | some m => exact .inr (.inr rfl)
  | evictRun => left; simp only [Topic.step]; split <;> rfl
  | retainSend => left; simp only [Topic.step]; split <;> rfl
  | retainDone =>
    left
    simp only [Topic.step]
    split
    · unfold Topic.applyOutcome; split <;> rfl
    · rfl
  | storage now =>
    left
    simp only [Topic.step]
    split
    · rfl
    · next c cs _ => cases c <;> rfl
  | flush now => left; simp only [Topic.step, Topic.flushAll]; split <;> rfl
  | evictLoad => exact .inl rfl
  | leak s n now => exact .inl rfl
  | closeHandle s now => exact .inl rfl
  | _ => exact absurd rfl hw

/-! ### Schedules -/

namespace Polls

variable {s : Polls}

theorem run_append (crc : Bytes → Nat) (a b : List WEv) (s : Polls) : s.run crc (a ++ b) = (s.run crc a).run crc b := by
  induction a generalizing s with
  | nil => rfl
  | cons e a ih => simp only [List.cons_append, Polls.run]; exact ih _

theorem acts_append (crc : Bytes → Nat) (a b : List WEv) (s : Polls) :
    s.acts crc (a ++ b) = s.acts crc a ++ (s.run crc a).acts crc b := by
  induction a generalizing s with
  | nil => rfl
  | cons e a ih => simp only [List.cons_append, Polls.acts, Polls.run]; rw [ih, List.append_assoc]

theorem step_topic (crc : Bytes → Nat) (s : Polls) (w : WEv) : (s.step crc w).t = s.t.run crc (s.act w).toList := by
  cases w with
  | notify => simp only [Polls.step, act]; split <;> rfl
  | listen id =>
    simp only [Polls.step, act]
    split
    · rfl
    · split
      · split
        · rfl
        · split <;> rfl
        · rfl
      · rfl
  | ev e =>
    simp only [Polls.step]
    cases h : s.act (.ev e) <;> rfl

theorem run_topic (crc : Bytes → Nat) (ws : List WEv) (s : Polls) : (s.run crc ws).t = s.t.run crc (s.acts crc ws) := by
  induction ws generalizing s with
  | nil => rfl
  | cons w ws ih =>
    simp only [Polls.run, Polls.acts]
    rw [ih, step_topic, Stream.run_append]

end Polls

/-- What holds of the long-polling fetches in every schedule. -/
structure PollInv (crc : Bytes → Nat) (t : Topic) (s : Polls) (es : List Ev) : Prop where
  snap : ∀ id n b, mget s.snaps id = some (n, b) → n ≤ s.counter
  has : ∀ id op, mget s.t.fetches id = some op → op.phase = .waiting → op.poll = true ∧ ∃ n b, mget s.snaps id = some (n, b)
  asleep : ∀ id op, mget s.t.fetches id = some op → op.phase = .waiting → 0 < op.limit → mget s.snaps id = some (s.counter, false) →
    0 < s.notifying + s.t.sends.length ∨ NothingOwed (viewAfter crc t op.group es)

theorem PollInv.step (hst : StartsWith crc base H now t) (hmd : 1 ≤ t.cfg.maxDeliveries) {s : Polls} {es : List Ev}
    (hs : s.t = t.run crc es) (w : WEv) (hnd' : ∀ name, (joinIds name (es ++ (s.act w).toList)).Nodup)
    (hf : ∀ m ∈ published t.log.next es, Fits m) (h : PollInv crc t s es) : PollInv crc t (s.step crc w) (es ++ (s.act w).toList) := by
  have hnd : ∀ name, (joinIds name es).Nodup := fun name => joinIds_prefix (hnd' name)
  cases w with
  | notify =>
    simp only [Polls.step, Polls.act, Option.toList_none, List.append_nil]
    split
    · exact h
    · refine ⟨fun id n b hx => Nat.le_succ_of_le (h.snap id n b hx), h.has, fun id op _ _ _ hx => ?_⟩
      have := h.snap id _ _ hx
      simp only at this
      omega
  | listen id =>
    have key : PollInv crc t { s with snaps := mset s.snaps id (s.counter, true) } es := by
      refine ⟨fun i n b hx => ?_, fun i op hi hp => ⟨(h.has i op hi hp).1, ?_⟩, fun i op hi hp hl hx => ?_⟩
      · simp only [mget_mset] at hx
        split at hx
        · cases hx; exact Nat.le_refl _
        · exact h.snap i n b hx
      · simp only [mget_mset]
        split
        · exact ⟨_, _, rfl⟩
        · exact (h.has i op hi hp).2
      · simp only [mget_mset] at hx
        split at hx
        · cases hx
        · exact h.asleep i op hi hp hl hx
    simp only [Polls.step, Polls.act, Option.toList_none, List.append_nil]
    split
    · exact h
    · split
      · split
        · exact key
        · split
          · exact key
          · exact h
        · exact h
      · exact h
  | ev e =>
    simp only [Polls.step]
    cases ha : s.act (.ev e) with
    | none => simp only [Option.toList_none, List.append_nil]; exact h
    | some e' =>
      rw [ha] at hnd'
      simp only [Option.toList_some] at hnd' ⊢
      have hact : ∀ id at_, e' = .attempt id at_ → ∀ op, mget s.t.fetches id = some op → op.poll = true →
          ∃ n, mget s.snaps id = some (n, true) := by
        intro id at_ he op hop hpoll
        subst he
        have : e = .attempt id at_ := by
          cases e <;> simp only [Polls.act, Option.some.injEq] at ha <;> try (cases ha; done)
          split at ha
          · cases ha
          · split at ha
            · split at ha
              · simp only [Option.some.injEq] at ha; exact ha
              · cases ha
            · simp only [Option.some.injEq] at ha; exact ha
        subst this
        simp only [Polls.act, hop, hpoll, if_true] at ha
        split at ha
        · next n hn => exact ⟨n, hn⟩
        · cases ha
      have hsl : ∀ id n b, mget (Polls.sleep s.snaps e') id = some (n, b) →
          ∃ b0, mget s.snaps id = some (n, b0) ∧ ((∀ at_, e' ≠ .attempt id at_) → b0 = b) := by
        intro id n b hx
        cases e' with
        | attempt i at_ =>
          simp only [Polls.sleep, mget_mupd] at hx
          split at hx
          · next hi =>
            cases hq : mget s.snaps id with
            | none => rw [hq] at hx; cases hx
            | some p =>
              rw [hq] at hx
              simp only [Option.map_some, Option.some.injEq, Prod.mk.injEq] at hx
              exact ⟨p.2, by rw [← hx.1], fun hne => absurd (by rw [hi]) (hne at_)⟩
          · exact ⟨b, hx, fun _ => rfl⟩
        | _ => exact ⟨b, hx, fun _ => rfl⟩
      have hsl2 : ∀ id p, mget s.snaps id = some p → ∃ n b, mget (Polls.sleep s.snaps e') id = some (n, b) := by
        intro id p hx
        cases e' with
        | attempt i at_ =>
          simp only [Polls.sleep, mget_mupd, hx]
          split <;> exact ⟨_, _, rfl⟩
        | _ => exact ⟨_, _, hx⟩
      refine ⟨fun id n b hx => ?_, fun id op hi hp => ?_, fun id op hi hp hl hx => ?_⟩
      · obtain ⟨b0, hb0, _⟩ := hsl id n b hx
        exact h.snap id n b0 hb0
      · rcases waiting_before hi hp with ⟨h1, _⟩ | ⟨at_, op0, he, h1, h2, h3, _⟩
        · obtain ⟨h4, n, b, h5⟩ := h.has id op h1 hp
          exact ⟨h4, hsl2 _ _ h5⟩
        · obtain ⟨n, hn⟩ := hact id at_ he op0 h1 h2
          exact ⟨by rw [h3]; exact h2, hsl2 _ _ hn⟩
      · simp only at hi hx ⊢
        have hstarted := hst.started hmd
        obtain ⟨J, hr, hti, hcfg, _, _⟩ := hstarted.reach op.group es (hnd _)
        have heff := hstarted.effect op.group es e' (hnd _)
        rw [← hs] at hr heff hti hcfg
        rw [← hcfg] at heff
        by_cases hn : notifies s.t e' = true
        · left; rw [if_pos hn]; omega
        · have hn' : notifies s.t e' = false := by simpa using hn
          rcases sends_step (crc := crc) (t := s.t) e' with hse | ⟨_, hse⟩ | hse
          · by_cases hpos : 0 < s.notifying + s.t.sends.length
            · left; rw [hse]; omega
            · right
              have hnx : (viewAfter crc t op.group (es ++ [e'])).next = (viewAfter crc t op.group es).next
                  ∨ ∃ ts p, e' = .publish ts p := by
                obtain ⟨J', hr', _, _, _, _⟩ := hstarted.reach op.group (es ++ [e']) (hnd' _)
                have hx := hr'.next
                rw [run_append, ← hs] at hx
                simp only [Topic.run] at hx
                rw [step_next] at hx
                rw [hr.next, hx]
                cases e' <;> first | exact .inr ⟨_, _, rfl⟩ | exact .inl rfl
              rcases hnx with hnx | ⟨ts, p, rfl⟩
              · refine quiet_step hr heff hnx hn' ?_
                rcases waiting_before hi hp with ⟨h1, h2⟩ | ⟨at_, op0, he, h1, h2, h3, h4⟩
                · obtain ⟨b0, hb0, hb1⟩ := hsl id _ _ hx
                  have := hb1 h2
                  subst this
                  rcases h.asleep id op h1 hp hl hb0 with h5 | h5
                  · exact absurd h5 hpos
                  · exact h5
                · subst h3
                  exact wait_nothing hti hr (nothing_above hst hmd _ es (hnd _) hf) hl h4
              · simp [Topic.step] at hse
          · left; rw [hse]; omega
          · rw [hn'] at hse; cases hse

theorem PollInv.run (hst : StartsWith crc base H now t) (hmd : 1 ≤ t.cfg.maxDeliveries) (ws : List WEv)
    (hnd : ∀ name, (joinIds name ((Polls.start t).acts crc ws)).Nodup)
    (hf : ∀ m ∈ published t.log.next ((Polls.start t).acts crc ws), Fits m) :
    PollInv crc t ((Polls.start t).run crc ws) ((Polls.start t).acts crc ws) := by
  generalize hn : ws.length = n
  induction n generalizing ws with
  | zero =>
    rw [List.length_eq_zero_iff.1 hn]
    obtain ⟨lossy, d, _, ht⟩ := hst
    have hfe : t.fetches = [] := by rw [ht]; rfl
    have hr : (Polls.run crc (Polls.start t) []).t.fetches = [] := hfe
    refine ⟨(fun id n b h => by cases h), fun id op h => ?_, fun id op h => ?_⟩
    · rw [hr] at h; cases h
    · rw [hr] at h; cases h
  | succ n ih =>
    obtain ⟨pre, w, rfl, hl⟩ := snoc_split hn
    rw [Polls.acts_append] at hnd hf ⊢
    rw [Polls.run_append]
    have := ih pre (fun name => joinIds_prefix (hnd name)) (published_prefix_fits hf) hl
    have := this.step hst hmd (Polls.run_topic crc pre (Polls.start t)) w
      (by simpa [Polls.acts] using hnd) (published_prefix_fits hf)
    simpa [Polls.acts, Polls.run] using this

end Verif.Stream
