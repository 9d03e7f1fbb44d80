import Verif.Props.Stream

/-!
# Properties of topics and groups (C38, C50–C53)
-/

namespace Verif.Stream

open Group

/-! ### C38: sequence numbers -/

theorem published_seq (first : Nat) (es : List Ev) :
    (published first es).map (·.seq) = List.range' first (published first es).length := by
  induction es generalizing first with
  | nil => rfl
  | cons e es ih =>
    cases e with
    | publish ts p => simp only [published, List.map_cons, List.length_cons, List.range'_succ, ih]
    | _ => exact ih first

theorem perm_eraseIdx {α : Type} (l : List α) (i : Nat) (x : α) (h : l[i]? = some x) : l.Perm (x :: l.eraseIdx i) := by
  induction l generalizing i with
  | nil => cases h
  | cons y l ih =>
    cases i with
    | zero => simp only [List.getElem?_cons_zero, Option.some.injEq] at h; subst h; exact List.Perm.refl _
    | succ i =>
      simp only [List.getElem?_cons_succ] at h
      simp only [List.eraseIdx_cons_succ]
      exact ((ih i h).cons y).trans (List.Perm.swap x y _)

/-- The events that touch neither `next` nor the publishes in progress. -/
theorem step_sends (crc : Bytes → Nat) (t : Topic) (e : Ev) :
    (∃ ts p, e = .publish ts p ∧ (t.step crc e).1.log.next = t.log.next + 1
      ∧ (t.step crc e).1.sends = t.sends ++ [{ seq := t.log.next, timestamp := ts, payload := p }]
      ∧ (t.step crc e).2 = .none)
    ∨ ((∀ ts p, e ≠ .publish ts p) ∧ (t.step crc e).1.log.next = t.log.next
      ∧ ((∃ m, (t.step crc e).2 = .published m.seq ∧ t.sends.Perm (m :: (t.step crc e).1.sends))
        ∨ ((∀ s, (t.step crc e).2 ≠ .published s) ∧ (t.step crc e).1.sends = t.sends))) := by
  cases e with
  | publish ts p => exact .inl ⟨ts, p, rfl, rfl, rfl, rfl⟩
  | send i =>
    right
    simp only [Topic.step]
    refine ⟨(fun ts p h => by cases h), ?_⟩
    cases h : t.sends[i]? with
    | none => exact ⟨rfl, .inr ⟨(fun s h => by cases h), rfl⟩⟩
    | some m => exact ⟨rfl, .inl ⟨m, rfl, perm_eraseIdx _ _ _ h⟩⟩
  | join g conn c => exact .inr ⟨(fun ts p h => by cases h), rfl, .inr ⟨(fun s h => by cases h), rfl⟩⟩
  | leave g c gen order =>
    refine .inr ⟨(fun ts p h => by cases h), ?_⟩
    simp only [Topic.step, Topic.leave]
    split
    · exact ⟨rfl, .inr ⟨(fun s h => by cases h), rfl⟩⟩
    · split
      · exact ⟨rfl, .inr ⟨(fun s h => by cases h), rfl⟩⟩
      · split
        · exact ⟨rfl, .inr ⟨(fun s h => by cases h), rfl⟩⟩
        · exact ⟨rfl, .inr ⟨(fun s h => by cases h), rfl⟩⟩
  | disconnect conn order =>
    have := disconnect_frame t conn order
    exact .inr ⟨(fun ts p h => by cases h), by simp only [Topic.step]; rw [this.log],
      .inr ⟨(fun s h => by cases h), this.sends⟩⟩
  | fetch g c gen l p =>
    refine .inr ⟨(fun ts p h => by cases h), ?_⟩
    simp only [Topic.step]
    split
    · exact ⟨rfl, .inr ⟨(fun s h => by cases h), rfl⟩⟩
    · exact ⟨rfl, .inr ⟨(fun s h => by cases h), rfl⟩⟩
  | attempt id now =>
    have := (attempt_frame t id now).1
    refine .inr ⟨(fun ts p h => by cases h), by simp only [Topic.step]; rw [this.log], .inr ⟨?_, this.sends⟩⟩
    intro s
    simp only [Topic.step, Topic.attempt]
    split
    · intro h; cases h
    · split
      · intro h; cases h
      · split
        · intro h; simp only [Topic.endFetch] at h; cases h
        · intro h; simp only [Topic.endFetch] at h; cases h
        · intro h; cases h
        · split
          · intro h; cases h
          · intro h; simp only [Topic.endFetch] at h; cases h
  | giveUp id =>
    refine .inr ⟨(fun ts p h => by cases h), ?_⟩
    simp only [Topic.step]
    split
    · exact ⟨rfl, .inr ⟨(fun s h => by cases h), rfl⟩⟩
    · split
      · exact ⟨rfl, .inr ⟨(fun s h => by simp only [Topic.endFetch] at h; cases h), rfl⟩⟩
      · exact ⟨rfl, .inr ⟨(fun s h => by cases h), rfl⟩⟩
  | finish id now =>
    refine .inr ⟨(fun ts p h => by cases h), ?_⟩
    simp only [Topic.step]
    split
    · exact ⟨rfl, .inr ⟨(fun s h => by cases h), rfl⟩⟩
    · next op _ =>
      split
      · next ms _ =>
        have := (finishCold_frame t op ms now).1
        refine ⟨by simp only [Topic.endFetch]; rw [this.log], .inr ⟨(fun s h => by simp only [Topic.endFetch] at h; cases h), ?_⟩⟩
        simp only [Topic.endFetch]; exact this.sends
      · exact ⟨rfl, .inr ⟨(fun s h => by cases h), rfl⟩⟩
  | abort id => exact .inr ⟨(fun ts p h => by cases h), rfl, .inr ⟨(fun s h => by cases h), rfl⟩⟩
  | ack g c gen s =>
    refine .inr ⟨(fun ts p h => by cases h), ?_⟩
    simp only [Topic.step, Topic.ack]
    split
    · exact ⟨rfl, .inr ⟨(fun s h => by cases h), rfl⟩⟩
    · split
      · exact ⟨rfl, .inr ⟨(fun s h => by cases h), rfl⟩⟩
      · exact ⟨rfl, .inr ⟨(fun s h => by cases h), rfl⟩⟩
  | seek g b => exact .inr ⟨(fun ts p h => by cases h), rfl, .inr ⟨(fun s h => by cases h), rfl⟩⟩
  | tick now order => exact .inr ⟨(fun ts p h => by cases h), rfl, .inr ⟨(fun s h => by cases h), rfl⟩⟩
  | evictLoad => exact .inr ⟨(fun ts p h => by cases h), rfl, .inr ⟨(fun s h => by cases h), rfl⟩⟩
  | evictRun =>
    refine .inr ⟨(fun ts p h => by cases h), ?_⟩
    simp only [Topic.step]
    split
    · exact ⟨rfl, .inr ⟨(fun s h => by cases h), rfl⟩⟩
    · exact ⟨rfl, .inr ⟨(fun s h => by cases h), rfl⟩⟩
  | save order =>
    refine .inr ⟨(fun ts p h => by cases h), ?_⟩
    simp only [Topic.step, Topic.saveGroups]
    split
    · exact ⟨rfl, .inr ⟨(fun s h => by cases h), rfl⟩⟩
    · exact ⟨rfl, .inr ⟨(fun s h => by cases h), rfl⟩⟩
  | retainSend =>
    refine .inr ⟨(fun ts p h => by cases h), ?_⟩
    simp only [Topic.step]
    split
    · exact ⟨rfl, .inr ⟨(fun s h => by cases h), rfl⟩⟩
    · exact ⟨rfl, .inr ⟨(fun s h => by cases h), rfl⟩⟩
  | retainDone =>
    refine .inr ⟨(fun ts p h => by cases h), ?_⟩
    simp only [Topic.step, Topic.applyOutcome]
    split
    · split
      · exact ⟨rfl, .inr ⟨(fun s h => by cases h), rfl⟩⟩
      · exact ⟨rfl, .inr ⟨(fun s h => by cases h), rfl⟩⟩
    · exact ⟨rfl, .inr ⟨(fun s h => by cases h), rfl⟩⟩
  | read f l =>
    refine .inr ⟨(fun ts p h => by cases h), ?_⟩
    simp only [Topic.step, Topic.startRead]
    split
    · exact ⟨rfl, .inr ⟨(fun s h => by cases h), rfl⟩⟩
    · exact ⟨rfl, .inr ⟨(fun s h => by cases h), rfl⟩⟩
  | readDone id =>
    refine .inr ⟨(fun ts p h => by cases h), ?_⟩
    simp only [Topic.step]
    split
    · exact ⟨rfl, .inr ⟨(fun s h => by cases h), rfl⟩⟩
    · exact ⟨rfl, .inr ⟨(fun s h => by cases h), rfl⟩⟩
  | storage now =>
    refine .inr ⟨(fun ts p h => by cases h), ?_⟩
    simp only [Topic.step]
    split
    · exact ⟨rfl, .inr ⟨(fun s h => by cases h), rfl⟩⟩
    · next c cs _ =>
      cases c <;> exact ⟨rfl, .inr ⟨(fun s h => by cases h), rfl⟩⟩
  | flush now =>
    refine .inr ⟨(fun ts p h => by cases h), ?_⟩
    simp only [Topic.step, Topic.flushAll]
    split
    · exact ⟨rfl, .inr ⟨(fun s h => by cases h), rfl⟩⟩
    · exact ⟨rfl, .inr ⟨(fun s h => by cases h), rfl⟩⟩
  | leak start n now => exact .inr ⟨(fun ts p h => by cases h), rfl, .inr ⟨(fun s h => by cases h), rfl⟩⟩
  | closeHandle start now => exact .inr ⟨(fun ts p h => by cases h), rfl, .inr ⟨(fun s h => by cases h), rfl⟩⟩

theorem published_other {first : Nat} {e : Ev} (h : ∀ ts p, e ≠ .publish ts p) (es : List Ev) :
    published first (e :: es) = published first es := by
  cases e with
  | publish ts p => exact absurd rfl (h ts p)
  | _ => rfl

theorem answered_other {e : Ev} {o : Out} (h : ∀ s, o ≠ .published s) (hs : List (Ev × Out)) :
    answered ((e, o) :: hs) = answered hs := by
  cases o with
  | published s => exact absurd rfl (h s)
  | _ => rfl

theorem publish_run (crc : Bytes → Nat) (es : List Ev) (t : Topic) :
    (t.run crc es).log.next = t.log.next + (published t.log.next es).length
    ∧ (answered (t.trace crc es) ++ (t.run crc es).sends.map (·.seq)).Perm
        (t.sends.map (·.seq) ++ (published t.log.next es).map (·.seq)) := by
  induction es generalizing t with
  | nil => exact ⟨rfl, by simp [answered, published, Topic.run, Topic.trace]⟩
  | cons e es ih =>
    have ih := ih (t.step crc e).1
    simp only [Topic.run, Topic.trace]
    rcases step_sends crc t e with ⟨ts, p, he, h1, h2, h3⟩ | ⟨he, h1, h | h⟩
    · rw [h1, h2] at ih
      subst he
      rw [h3]
      simp only [published, answered, List.length_cons]
      refine ⟨by rw [ih.1]; omega, ih.2.trans ?_⟩
      simp
    · obtain ⟨m, h3, h4⟩ := h
      rw [h1] at ih
      rw [h3, published_other he]
      simp only [answered]
      refine ⟨ih.1, ?_⟩
      have h5 := (h4.map (·.seq)).append_right ((published t.log.next es).map (·.seq))
      refine List.Perm.trans ?_ h5.symm
      simp only [List.map_cons, List.cons_append]
      exact ih.2.cons _
    · obtain ⟨h3, h4⟩ := h
      rw [h1, h4] at ih
      rw [answered_other h3, published_other he]
      exact ih

/-- **C38** In every run each publish gets exactly one number: the numbers that have been returned, together with those
of the publishes still in progress, are the `n` consecutive numbers from the first free one, each once, `n` being the
number of publishes. -/
theorem C38_dense (crc : Bytes → Nat) (t : Topic) (hst : Started crc t) (es : List Ev) :
    (answered (t.trace crc es) ++ (t.run crc es).sends.map (·.seq)).Perm
      (List.range' t.log.next (published t.log.next es).length) := by
  have hs : t.sends = [] := by
    obtain ⟨_, lossy, d, _, ht⟩ := hst
    rw [ht]; rfl
  have := (publish_run crc es t).2
  rw [hs, published_seq] at this
  exact this

/-- **C38** In the order in which they take effect: a publish after the history `es` gets the first number that the
earlier publishes have left, whatever else has happened. -/
theorem C38_next_number (crc : Bytes → Nat) (t : Topic) (es : List Ev) (ts : Nat) (p : Bytes) :
    let t1 := ((t.run crc es).step crc (.publish ts p)).1
    (t1.step crc (.send (t1.sends.length - 1))).2
      = .published (t.log.next + (published t.log.next es).length) := by
  have h := (publish_run crc es t).1
  simp only [Topic.step, List.length_append, List.length_cons, List.length_nil, Nat.add_sub_cancel, Nat.zero_add,
    List.getElem?_concat_length]
  rw [← h]
  rfl

/-- **C38** A new topic starts with number 1. -/
theorem C38_first (crc : Bytes → Nat) (cfg : Cfg) : (Topic.fresh crc cfg).log.next = 1 := rfl

example : answered (Ex.t0.trace Ex.crc Ex.es1) = [1, 2, 3]
    ∧ (answered (Ex.t0.trace Ex.crc [.publish 0 [], .publish 0 [], .send 1, .publish 0 [], .send 0])
        , ((Ex.t0.run Ex.crc [.publish 0 [], .publish 0 [], .send 1, .publish 0 [], .send 0]).sends.map (·.seq)))
      = ([2, 1], [3]) := by decide

/-! ### C50, C51: taking messages back -/

theorem released_of {head head' max : Nat} {g g' : Group} {F F' : Nat → Fate} {gone : Pend → Prop} (h : GInv head g F)
    (h' : GInv head' g' F') (hmax : g.maxDeliveries = max)
    (hF1 : ∀ s c t k, F s = .held c t k → gone ⟨c, t, k⟩ → F' s = (F s).release max)
    (hF2 : ∀ s c t k, F s = .held c t k → ¬ gone ⟨c, t, k⟩ → F' s = F s)
    (hF3 : ∀ s, (∀ c t k, F s ≠ .held c t k) → F' s = F s) : Released max gone g g' := by
  have hc := h.core
  have hc' := h'.core
  have hnh : ∀ s, (∀ k, F' s ≠ .waiting k) → s ∉ g'.redeliver := by
    intro s hs hm
    obtain ⟨k, hk⟩ := hc'.redAtt s hm
    exact hs k ((hc'.waiting s k).2 ⟨hm, hk⟩)
  have hrel : ∀ s c t k, F s = .held c t k → (F s).release max = if max ≤ k then .gaveUp else .waiting k := by
    intro s c t k hs; rw [hs]; rfl
  have hback : ∀ s c t k, F' s = .held c t k → F s = .held c t k := by
    intro s c t k hs
    by_cases hh : ∃ c t k, F s = .held c t k
    · obtain ⟨c', t', k', hh⟩ := hh
      by_cases hg : gone ⟨c', t', k'⟩
      · rw [hF1 s c' t' k' hh hg, hrel s c' t' k' hh] at hs
        split at hs <;> cases hs
      · rw [hF2 s c' t' k' hh hg] at hs; exact hs
    · rw [hF3 s (fun c t k hx => hh ⟨c, t, k, hx⟩)] at hs; exact hs
  refine ⟨?_, ?_, ?_, ?_, ?_, ?_⟩
  · intro s p hp hg
    have hf := (hc.held s p.consumer p.at_ p.count).2 hp
    have := hF2 s _ _ _ hf hg
    rw [hf] at this
    exact (hc'.held s p.consumer p.at_ p.count).1 this
  · intro s p hp hg
    have hf := (hc.held s p.consumer p.at_ p.count).2 hp
    have h1 := hF1 s _ _ _ hf hg
    rw [hrel s _ _ _ hf] at h1
    refine ⟨?_, ?_⟩
    · cases hp' : mget g'.pending s with
      | none => rfl
      | some p' =>
        have := (hc'.held s p'.consumer p'.at_ p'.count).2 hp'
        rw [h1] at this
        split at this <;> cases this
    · by_cases hlt : p.count < max
      · rw [if_neg (by omega)] at h1
        exact ⟨fun _ => hlt, fun _ => ((hc'.waiting s _).1 h1).1⟩
      · rw [if_pos (by omega)] at h1
        exact ⟨fun hm => absurd hm (hnh s (fun k hk => by rw [h1] at hk; cases hk)), fun h => absurd h hlt⟩
  · intro s p hp
    have hf := (hc'.held s p.consumer p.at_ p.count).2 hp
    exact (hc.held s p.consumer p.at_ p.count).1 (hback s _ _ _ hf)
  · intro s hm
    obtain ⟨k, hk⟩ := hc.redAtt s hm
    have hw := (hc.waiting s k).2 ⟨hm, hk⟩
    have := hF3 s (fun c t k' hx => by rw [hw] at hx; cases hx)
    rw [hw] at this
    exact ((hc'.waiting s k).1 this).1
  · intro s hm
    obtain ⟨k, hk⟩ := hc'.redAtt s hm
    have hw := (hc'.waiting s k).2 ⟨hm, hk⟩
    by_cases hh : ∃ c t k, F s = .held c t k
    · obtain ⟨c', t', k', hh⟩ := hh
      by_cases hg : gone ⟨c', t', k'⟩
      · exact .inr ⟨_, (hc.held s c' t' k').1 hh, hg⟩
      · rw [hF2 s c' t' k' hh hg, hh] at hw; cases hw
    · rw [hF3 s (fun c t k hx => hh ⟨c, t, k, hx⟩)] at hw
      exact .inl ((hc.waiting s k).1 hw).1
  · have hfr : ∀ s, F' s = .fresh ↔ F s = .fresh := by
      intro s
      by_cases hh : ∃ c t k, F s = .held c t k
      · obtain ⟨c', t', k', hh⟩ := hh
        by_cases hg : gone ⟨c', t', k'⟩
        · rw [hF1 s c' t' k' hh hg, hrel s _ _ _ hh, hh]
          constructor
          · intro h; split at h <;> cases h
          · intro h; cases h
        · rw [hF2 s c' t' k' hh hg]
      · rw [hF3 s (fun c t k hx => hh ⟨c, t, k, hx⟩)]
    have h1 := (hfr g'.next).1 ((hc'.fresh g'.next).2 (Nat.le_refl _))
    have h2 := (hfr g.next).2 ((hc.fresh g.next).2 (Nat.le_refl _))
    have h1 := (hc.fresh g'.next).1 h1
    have h2 := (hc'.fresh g.next).1 h2
    omega

section

variable {crc : Bytes → Nat} {t : Topic} (hst : Started crc t) (name : Str)
include hst

/-- **C50** When a consumer leaves, exactly the messages that it holds are taken back: they go to the redelivery queue at
once, or are set aside if they have been delivered as often as allowed.  Nobody else's messages are touched. -/
theorem C50_leave (es : List Ev) (hnd : (joinIds name es).Nodup) (c : Str) (gen : Nat) (order : List Nat)
    (hok : ((t.run crc es).step crc (.leave name c gen order)).2 = .ok) :
    ∃ g g', mget (t.run crc es).groups name = some g
      ∧ mget ((t.run crc es).step crc (.leave name c gen order)).1.groups name = some g'
      ∧ Released t.cfg.maxDeliveries (fun p => p.consumer = c) g g' := by
  obtain ⟨J, hr, _, hcfg, _⟩ := hst.reach name es hnd
  rcases leave_rel hr name c gen order with ⟨e, he⟩ | ⟨h1, h2⟩
  · simp only [Topic.step, he] at hok; cases hok
  · rw [if_pos rfl] at h2
    simp only [Topic.step]
    have hne : ∃ g, mget (t.run crc es).groups name = some g := by
      cases hg : mget (t.run crc es).groups name with
      | some g => exact ⟨g, rfl⟩
      | none => simp [Topic.step, Topic.leave, hg] at hok
    obtain ⟨g, hg⟩ := hne
    have hne' : ∃ g', mget ((t.run crc es).leave name c gen order).1.groups name = some g' := by
      have hk := h2.known
      have hk' : (viewAfter crc t name es).known = true := hr.known_of hg
      change (viewAfter crc t name es).known = _ at hk
      rw [hk'] at hk
      simp only [mhas] at hk
      exact Option.isSome_iff_exists.1 hk.symm
    obtain ⟨g', hg'⟩ := hne'
    refine ⟨g, g', hg, hg', ?_⟩
    have a := hr.grp g hg
    have b := h2.grp g' hg'
    have hl := fates_left t.cfg.maxDeliveries t.cfg.ackWait (viewAfter crc t name es).fate (fun c' => decide (c' = c))
    rw [hcfg] at b
    refine released_of a.inv b.inv (by rw [a.md, hcfg]) ?_ ?_ ?_
    · intro s c' t' k hs hgn
      have := hl s
      rw [hs] at this ⊢
      simp only at this
      rw [if_pos (by simpa using hgn)] at this
      exact this
    · intro s c' t' k hs hgn
      have := hl s
      rw [hs] at this ⊢
      simp only at this
      rw [if_neg (by simpa using hgn)] at this
      exact this
    · intro s hs
      have := hl s
      cases hf : (viewAfter crc t name es).fate s with
      | held c' t' k => exact absurd hf (hs c' t' k)
      | _ => rw [hf] at this; exact this

/-- **C50** When a connection closes, exactly the messages held by the consumers that have joined over it are taken
back. -/
theorem C50_disconnect (es : List Ev) (hnd : (joinIds name es).Nodup) (conn : Str) (order : Str → List Nat) (g : Group)
    (hg : mget (t.run crc es).groups name = some g) :
    ∃ g', mget ((t.run crc es).step crc (.disconnect conn order)).1.groups name = some g'
      ∧ Released t.cfg.maxDeliveries (fun p => mget g.members p.consumer = some conn) g g'
      ∧ ∀ c, mget g'.members c = if mget g.members c = some conn then none else mget g.members c := by
  obtain ⟨J, hr, _, hcfg, _⟩ := hst.reach name es hnd
  have h2 := disconnect_rel hr conn order
  have hne' : ∃ g', mget ((t.run crc es).disconnect conn order).groups name = some g' := by
    have hk := h2.known
    have hk' : (viewAfter crc t name es).known = true := hr.known_of hg
    change (viewAfter crc t name es).known = _ at hk
    rw [hk'] at hk
    simp only [mhas] at hk
    exact Option.isSome_iff_exists.1 hk.symm
  obtain ⟨g', hg'⟩ := hne'
  refine ⟨g', hg', ?_, ?_⟩
  · have a := hr.grp g hg
    have b := h2.grp g' hg'
    have hl := fates_left t.cfg.maxDeliveries t.cfg.ackWait (viewAfter crc t name es).fate
      (fun c => decide ((c, conn) ∈ (viewAfter crc t name es).members))
    rw [hcfg] at b
    refine released_of a.inv b.inv (by rw [a.md, hcfg]) ?_ ?_ ?_
    · intro s c' t' k hs hgn
      have := hl s
      rw [hs] at this ⊢
      simp only at this
      rw [if_pos (by simpa using (a.mem c' conn).1 hgn)] at this
      exact this
    · intro s c' t' k hs hgn
      have := hl s
      rw [hs] at this ⊢
      simp only at this
      rw [if_neg (by simp only [decide_eq_true_eq]; intro hx; exact hgn ((a.mem c' conn).2 hx))] at this
      exact this
    · intro s hs
      have := hl s
      cases hf : (viewAfter crc t name es).fate s with
      | held c' t' k => exact absurd hf (hs c' t' k)
      | _ => rw [hf] at this; exact this
  · intro c
    have a := (hr.grp g hg).mem c
    have b := (h2.grp g' hg').mem c
    have hb : ∀ cn, mget g'.members c = some cn ↔ (mget g.members c = some cn ∧ cn ≠ conn) := by
      intro cn
      rw [b cn, a cn]
      simp [List.mem_filter]
    cases hm : mget g.members c with
    | none =>
      rw [if_neg (fun h => by cases h)]
      cases hm' : mget g'.members c with
      | none => rfl
      | some cn => have := ((hb cn).1 hm').1; rw [hm] at this; cases this
    | some cn =>
      by_cases hcn : cn = conn
      · subst hcn
        rw [if_pos rfl]
        cases hm' : mget g'.members c with
        | none => rfl
        | some cn' =>
          have := (hb cn').1 hm'
          rw [hm] at this
          exact absurd (Option.some.inj this.1).symm this.2
      · rw [if_neg (fun h => hcn (Option.some.inj h))]
        exact (hb cn).2 ⟨hm, hcn⟩

/-- **C51** The redelivery task takes back exactly the messages whose holder has had more than `ack_wait` time. -/
theorem C51_deadline (es : List Ev) (hnd : (joinIds name es).Nodup) (now : Nat) (order : Str → List Nat) (g : Group)
    (hg : mget (t.run crc es).groups name = some g) :
    ∃ g', mget ((t.run crc es).step crc (.tick now order)).1.groups name = some g'
      ∧ Released t.cfg.maxDeliveries (fun p => p.at_ + t.cfg.ackWait < now) g g' := by
  obtain ⟨J, hr, _, hcfg, _⟩ := hst.reach name es hnd
  have h2 := tick_rel hr now order
  have hne' : ∃ g', mget ((t.run crc es).tick now order).groups name = some g' := by
    have hk := h2.known
    have hk' : (viewAfter crc t name es).known = true := hr.known_of hg
    change (viewAfter crc t name es).known = _ at hk
    rw [hk'] at hk
    simp only [mhas] at hk
    exact Option.isSome_iff_exists.1 hk.symm
  obtain ⟨g', hg'⟩ := hne'
  refine ⟨g', hg', ?_⟩
  have a := hr.grp g hg
  have b := h2.grp g' hg'
  rw [hcfg] at b
  have hl : ∀ s, (View.obs t.cfg.maxDeliveries t.cfg.ackWait (viewAfter crc t name es) [.tick now]).fate s
      = Fate.step t.cfg.maxDeliveries t.cfg.ackWait s ((viewAfter crc t name es).fate s) (.tick now) := fun _ => rfl
  refine released_of a.inv b.inv (by rw [a.md, hcfg]) ?_ ?_ ?_
  · intro s c' t' k hs hgn
    rw [hl s, hs]
    simp only [Fate.step]
    simp only at hgn
    rw [if_pos (by omega)]
  · intro s c' t' k hs hgn
    rw [hl s, hs]
    simp only [Fate.step]
    simp only at hgn
    rw [if_neg (by omega)]
  · intro s hs
    rw [hl s]
    cases hf : (viewAfter crc t name es).fate s with
    | held c' t' k => exact absurd hf (hs c' t' k)
    | _ => rfl

omit hst in
/-- `c1` holds 1 and 2; when it leaves, or its connection closes, or at time 111, both wait; at time 110 they do not. -/
example : ((Ex.t0.run Ex.crc Ex.es1).step Ex.crc (.leave Ex.g Ex.c1 1 [])).2 = .ok
    ∧ (mget ((Ex.t0.run Ex.crc Ex.es1).step Ex.crc (.leave Ex.g Ex.c1 1 [])).1.groups Ex.g).map (·.redeliver) = some [1, 2]
    ∧ (mget ((Ex.t0.run Ex.crc Ex.es1).step Ex.crc (.disconnect Ex.k1 (fun _ => []))).1.groups Ex.g).map (·.redeliver)
      = some [1, 2]
    ∧ (mget ((Ex.t0.run Ex.crc Ex.es1).step Ex.crc (.disconnect Ex.k2 (fun _ => []))).1.groups Ex.g).map (·.redeliver)
      = some []
    ∧ (mget ((Ex.t0.run Ex.crc Ex.es1).step Ex.crc (.tick 111 (fun _ => []))).1.groups Ex.g).map (·.redeliver)
      = some [1, 2]
    ∧ (mget ((Ex.t0.run Ex.crc Ex.es1).step Ex.crc (.tick 110 (fun _ => []))).1.groups Ex.g).map (·.redeliver)
      = some [] := ⟨rfl, by decide, by decide, by decide, by decide, by decide⟩

/-! ### C52: progress -/

/-- The progress that a joiner is told: everything up to it is settled, the next message is not. -/
theorem join_progress (es : List Ev) (conn c : Str) (hnd : (joinIds name (es ++ [.join name conn c])).Nodup)
    (f gen : Nat) (c' : Str) (h : ((t.run crc es).step crc (.join name conn c)).2 = .joined f c' gen) :
    (∀ s ≤ f, ((viewAfter crc t name (es ++ [.join name conn c])).fate s).settled = true)
    ∧ ((viewAfter crc t name (es ++ [.join name conn c])).fate (f + 1)).settled = false := by
  obtain ⟨J, hr, hi, hcfg, hmd, hJ⟩ := hst.reach name es (joinIds_prefix hnd)
  have hfresh : name = name → ∀ cn, (c, cn) ∉ J := by
    intro _ cn hm
    have h1 := hJ c cn hm
    rw [joinIds_append] at hnd
    exact (List.nodup_append.1 hnd).2.2 c h1 c (by simp [joinIds]) rfl
  obtain ⟨_, h2⟩ := join_rel hi (by rw [hcfg]; exact hmd) hr name conn c hfresh
  obtain ⟨g, hgr, hj⟩ := h2 rfl
  simp only [Topic.step] at h
  rw [hj] at h
  cases h
  have hv : (viewAfter crc t name (es ++ [.join name conn c])).fate
      = (if (viewAfter crc t name es).known then viewAfter crc t name es
          else (viewAfter crc t name es).obs t.cfg.maxDeliveries t.cfg.ackWait [.restarted (viewAfter crc t name es).head]).fate := by
    rw [viewAfter_snoc]
    simp only [View.step, if_pos]
  rw [hv]
  rw [hcfg] at hgr
  have hc := hgr.inv.core
  refine ⟨fun s hs => (settled_iff hgr.inv s).2 ⟨?_, hc.floorOk s hs⟩, ?_⟩
  · have := hc.floorLt; omega
  · cases hse : Fate.settled ((if (viewAfter crc t name es).known then viewAfter crc t name es
          else (viewAfter crc t name es).obs t.cfg.maxDeliveries t.cfg.ackWait [.restarted (viewAfter crc t name es).head]).fate (g.floor + 1)) with
    | false => rfl
    | true =>
      obtain ⟨a, b, d⟩ := (settled_iff hgr.inv _).1 hse
      rcases hgr.inv.tight with h | h | h
      · omega
      · rw [b] at h; cases h
      · exact absurd h d

/-- **C52** The progress reported to a joiner is true, and as high as it can be: every message up to it is acknowledged,
set aside, removed by retention or skipped; the next one is not. -/
theorem C52_true (es : List Ev) (conn c : Str) (hnd : (joinIds name (es ++ [.join name conn c])).Nodup)
    (f gen : Nat) (c' : Str) (h : ((t.run crc es).step crc (.join name conn c)).2 = .joined f c' gen) :
    (∀ s ≤ f, (viewAfter crc t name (es ++ [.join name conn c])).fate s ∈ [.acked, .gaveUp, .removed, .skipped])
    ∧ (viewAfter crc t name (es ++ [.join name conn c])).fate (f + 1) ∉ [.acked, .gaveUp, .removed, .skipped] := by
  obtain ⟨h1, h2⟩ := join_progress hst name es conn c hnd f gen c' h
  refine ⟨fun s hs => ?_, ?_⟩
  · have := h1 s hs
    cases hf : (viewAfter crc t name (es ++ [.join name conn c])).fate s <;> rw [hf] at this <;>
      first | (cases this; done) | simp
  · cases hf : (viewAfter crc t name (es ++ [.join name conn c])).fate (f + 1) <;> rw [hf] at h2 <;>
      first | (cases h2; done) | simp

/-- **C52** The progress never decreases, except by a seek. -/
theorem C52_monotone (es1 es2 : List Ev) (conn1 c1 conn2 c2 : Str)
    (hnd : (joinIds name (es1 ++ .join name conn1 c1 :: es2 ++ [.join name conn2 c2])).Nodup) (hns : NoSeek name es2)
    (f1 gen1 f2 gen2 : Nat) (c1' c2' : Str)
    (h1 : ((t.run crc es1).step crc (.join name conn1 c1)).2 = .joined f1 c1' gen1)
    (h2 : ((t.run crc (es1 ++ .join name conn1 c1 :: es2)).step crc (.join name conn2 c2)).2 = .joined f2 c2' gen2) :
    f1 ≤ f2 := by
  have e1 : es1 ++ .join name conn1 c1 :: es2 = (es1 ++ [.join name conn1 c1]) ++ es2 := by simp
  rw [e1] at h2 hnd
  have hnd1 := joinIds_prefix (joinIds_prefix hnd)
  obtain ⟨a1, _⟩ := join_progress hst name es1 conn1 c1 hnd1 f1 gen1 c1' h1
  obtain ⟨_, b2⟩ := join_progress hst name _ conn2 c2 hnd f2 gen2 c2' h2
  apply Nat.le_of_not_lt
  intro hlt
  have hse := a1 (f2 + 1) (by omega)
  rw [List.append_assoc] at b2 hnd
  have key := hist_ind (name := name) hst (fun _ v => v.known = true ∧ (v.fate (f2 + 1)).settled = true)
    (fun e => ∀ b, e ≠ .seek name b) ?_ (es2 ++ [.join name conn2 c2]) (es1 ++ [.join name conn1 c1]) hnd ?_ ?_
  · rw [key.2] at b2; cases b2
  · intro es e v' _ hns ⟨hk, hf⟩ heff
    refine ⟨heff.known hk, ?_⟩
    have hng : (f2 + 1) ∉ ((t.run crc es).step crc e).2.gives name := by
      intro hg
      rcases (heff.gives_legal hg).1 with h | ⟨k, h, _⟩ <;> rw [h] at hf <;> cases hf
    rcases heff.keeps hns (.inl hk) hng with h | ⟨_, _, _, _, _, h⟩ | ⟨c', t', k', h, _, _⟩ | ⟨_, _, _, _, h⟩
    · rw [h]; exact hf
    · rw [h]; rfl
    · rw [h] at hf; cases hf
    · rw [h]; rfl
  · intro e he b hb
    rcases List.mem_append.1 he with h | h
    · exact hns b (by rw [← hb]; exact h)
    · simp only [List.mem_singleton] at h; rw [h] at hb; cases hb
  · refine ⟨?_, hse⟩
    rw [viewAfter_snoc]
    simp only [View.step, if_pos]

omit hst in
/-- Message 1 is acknowledged, message 2 is held: the progress is 1. -/
example : ((Ex.t0.run Ex.crc (Ex.es1 ++ [.ack Ex.g Ex.c1 1 1])).step Ex.crc (.join Ex.g Ex.k2 [3])).2 = .joined 1 [3] 1 := rfl

end

/-! ### C53: groups are independent -/

/-- The parts of a topic on which the requests of one group depend. -/
structure SameFor (name : Str) (t t' : Topic) : Prop where
  cfg : t'.cfg = t.cfg
  log : t'.log = t.log
  group : mget t'.groups name = mget t.groups name
  ops : ∀ id op, op.group = name → (mget t'.fetches id = some op ↔ mget t.fetches id = some op)

theorem SameFor.refl (name : Str) (t : Topic) : SameFor name t t := ⟨rfl, rfl, rfl, fun _ _ _ => Iff.rfl⟩

/-- Requests of another group do not touch what this group depends on. -/
theorem other_same {name name' : Str} (hne : name' ≠ name) (crc : Bytes → Nat) (t : Topic) (e : Ev)
    (he : Ev.of t name' e) : SameFor name t (t.step crc e).1 := by
  have hne' : name ≠ name' := fun h => hne h.symm
  cases e with
  | join g conn c =>
    simp only [Ev.of] at he; subst he
    exact ⟨rfl, rfl, mget_mset_ne _ _ hne', fun _ _ _ => Iff.rfl⟩
  | leave g c gen order =>
    simp only [Ev.of] at he; subst he
    simp only [Topic.step, Topic.leave]
    split
    · exact .refl _ _
    · split
      · exact .refl _ _
      · split
        · exact .refl _ _
        · exact ⟨rfl, rfl, mget_mset_ne _ _ hne', fun _ _ _ => Iff.rfl⟩
  | ack g c gen s =>
    simp only [Ev.of] at he; subst he
    simp only [Topic.step, Topic.ack]
    split
    · exact .refl _ _
    · split
      · exact ⟨rfl, rfl, mget_mset_ne _ _ hne', fun _ _ _ => Iff.rfl⟩
      · exact ⟨rfl, rfl, mget_mset_ne _ _ hne', fun _ _ _ => Iff.rfl⟩
  | seek g b =>
    simp only [Ev.of] at he; subst he
    exact ⟨rfl, rfl, mget_mset_ne _ _ hne', fun _ _ _ => Iff.rfl⟩
  | attempt id now =>
    obtain ⟨op, hop, hg⟩ := he
    simp only [Topic.step, Topic.attempt, hop]
    have hfr := tryFetch_frame t op.group op.consumer op.gen op.limit now
    have hgr := tryFetch_other (name := name) t (group := op.group) (by rw [hg]; exact hne') op.consumer op.gen op.limit now
    have hdel : ∀ id' op', op'.group = name → (mget (mdel t.fetches id) id' = some op' ↔ mget t.fetches id' = some op') := by
      intro id' op' hn
      rw [mget_mdel]
      split
      · next h => subst h; rw [hop]; exact ⟨(fun h => by cases h), fun h => by cases h; rw [hg] at hn; exact absurd hn hne⟩
      · exact Iff.rfl
    have hset : ∀ ph id' op', op'.group = name →
        (mget (mset t.fetches id { op with phase := ph }) id' = some op' ↔ mget t.fetches id' = some op') := by
      intro ph id' op' hn
      rw [mget_mset]
      split
      · next h =>
        subst h; rw [hop]
        exact ⟨(fun h => by cases h; exact absurd (hg.symm.trans hn) hne), (fun h => by cases h; exact absurd (hg.symm.trans hn) hne)⟩
      · exact Iff.rfl
    split
    · exact .refl _ _
    · split
      · exact ⟨hfr.1.cfg, hfr.1.log, hgr, by simp only [Topic.endFetch]; rw [hfr.2.2.2]; exact hdel⟩
      · exact ⟨hfr.1.cfg, hfr.1.log, hgr, by simp only [Topic.endFetch]; rw [hfr.2.2.2]; exact hdel⟩
      · exact ⟨hfr.1.cfg, hfr.1.log, hgr, hset _⟩
      · split
        · exact ⟨hfr.1.cfg, hfr.1.log, hgr, hset _⟩
        · exact ⟨hfr.1.cfg, hfr.1.log, hgr, by simp only [Topic.endFetch]; rw [hfr.2.2.2]; exact hdel⟩
  | giveUp id =>
    obtain ⟨op, hop, hg⟩ := he
    simp only [Topic.step, hop]
    split
    · refine ⟨rfl, rfl, rfl, ?_⟩
      intro id' op' hn
      simp only [Topic.endFetch, mget_mdel]
      split
      · next h => subst h; rw [hop]; exact ⟨(fun h => by cases h), fun h => by cases h; rw [hg] at hn; exact absurd hn hne⟩
      · exact Iff.rfl
    · exact .refl _ _
  | finish id now =>
    obtain ⟨op, hop, hg⟩ := he
    simp only [Topic.step, hop]
    split
    · next ms _ =>
      have hfr := (finishCold_frame t op ms now).1
      have hf : (t.finishCold op ms now).1.fetches = t.fetches := by
        unfold Topic.finishCold
        split
        · rfl
        · simp only
          split
          · rfl
          · split <;> rfl
      have hgr : mget (t.finishCold op ms now).1.groups name = mget t.groups name := by
        unfold Topic.finishCold
        split
        · rfl
        · simp only
          split
          · exact mget_mset_ne _ _ (by rw [hg]; exact hne')
          · split
            · exact mget_mset_ne _ _ (by rw [hg]; exact hne')
            · exact mget_mset_ne _ _ (by rw [hg]; exact hne')
      refine ⟨hfr.cfg, hfr.log, hgr, ?_⟩
      intro id' op' hn
      simp only [Topic.endFetch, hf, mget_mdel]
      split
      · next h => subst h; rw [hop]; exact ⟨(fun h => by cases h), fun h => by cases h; rw [hg] at hn; exact absurd hn hne⟩
      · exact Iff.rfl
    · exact .refl _ _
  | _ => exact absurd he (fun h => h)

theorem tryFetch_local {name : Str} {t t' : Topic} (h : SameFor name t t') (c : Str) (gen limit now : Nat) :
    (t'.tryFetch name c gen limit now).2 = (t.tryFetch name c gen limit now).2
    ∧ mget (t'.tryFetch name c gen limit now).1.groups name = mget (t.tryFetch name c gen limit now).1.groups name := by
  have ha : t'.ask c now = t.ask c now := by simp only [Topic.ask, h.log]
  have hd : ∀ g ms, t'.decideFetch g ms = t.decideFetch g ms := fun g ms => by simp only [Topic.decideFetch, h.log]
  unfold Topic.tryFetch
  rw [h.group, h.log]
  cases hg : mget t.groups name with
  | none => simp only; exact ⟨trivial, by rw [h.group]⟩
  | some g =>
    simp only [ha, hd]
    split
    · exact ⟨rfl, by rw [mget_mset_same, mget_mset_same]⟩
    · split
      · exact ⟨rfl, by rw [mget_mset_same, mget_mset_same]⟩
      · exact ⟨rfl, by rw [mget_mset_same, mget_mset_same]⟩

/-- The requests of a group depend on nothing else. -/
theorem own_same {name : Str} {t t' : Topic} (h : SameFor name t t') (crc : Bytes → Nat) (e : Ev) (he : Ev.of t name e) :
    (t'.step crc e).2 = (t.step crc e).2
    ∧ mget (t'.step crc e).1.groups name = mget (t.step crc e).1.groups name := by
  cases e with
  | join g conn c =>
    simp only [Ev.of] at he; subst he
    simp only [Topic.step, Topic.join, Topic.newGroup, h.group, h.log, h.cfg, mget_mset_same]
    exact ⟨trivial, trivial⟩
  | leave g c gen order =>
    simp only [Ev.of] at he; subst he
    simp only [Topic.step, Topic.leave, h.group]
    cases hg : mget t.groups g with
    | none => simp only; exact ⟨trivial, by rw [h.group]⟩
    | some gr =>
      simp only
      split
      · exact ⟨rfl, by rw [h.group]⟩
      · split
        · exact ⟨rfl, by rw [h.group]⟩
        · exact ⟨rfl, by rw [mget_mset_same, mget_mset_same]⟩
  | ack g c gen s =>
    simp only [Ev.of] at he; subst he
    simp only [Topic.step, Topic.ack, h.group, h.log]
    cases hg : mget t.groups g with
    | none => simp only; exact ⟨trivial, by rw [h.group]⟩
    | some gr =>
      simp only
      split
      · exact ⟨rfl, by rw [mget_mset_same, mget_mset_same]⟩
      · exact ⟨rfl, by rw [mget_mset_same, mget_mset_same]⟩
  | seek g b =>
    simp only [Ev.of] at he; subst he
    simp only [Topic.step, Topic.seek, Topic.newGroup, h.group, h.log, h.cfg, mget_mset_same]
    exact ⟨trivial, trivial⟩
  | attempt id now =>
    obtain ⟨op, hop, hg⟩ := he
    subst hg
    have hop' := (h.ops id op rfl).2 hop
    obtain ⟨h1, h2⟩ := tryFetch_local h op.consumer op.gen op.limit now
    simp only [Topic.step, Topic.attempt, hop, hop', h1]
    split
    · exact ⟨rfl, h.group⟩
    · split
      · exact ⟨rfl, h2⟩
      · exact ⟨rfl, h2⟩
      · exact ⟨rfl, h2⟩
      · split
        · exact ⟨rfl, h2⟩
        · exact ⟨rfl, h2⟩
  | giveUp id =>
    obtain ⟨op, hop, hg⟩ := he
    subst hg
    have hop' := (h.ops id op rfl).2 hop
    simp only [Topic.step, hop, hop']
    split
    · exact ⟨rfl, h.group⟩
    · exact ⟨rfl, h.group⟩
  | finish id now =>
    obtain ⟨op, hop, hg⟩ := he
    subst hg
    have hop' := (h.ops id op rfl).2 hop
    simp only [Topic.step, hop, hop']
    split
    · next ms _ =>
      have : (t'.finishCold op ms now).2 = (t.finishCold op ms now).2
          ∧ mget (t'.finishCold op ms now).1.groups op.group = mget (t.finishCold op ms now).1.groups op.group := by
        unfold Topic.finishCold
        rw [h.group, h.log]
        cases hgg : mget t.groups op.group with
        | none => simp only; exact ⟨trivial, h.group⟩
        | some g =>
          simp only
          split
          · exact ⟨rfl, by rw [mget_mset_same, mget_mset_same]⟩
          · split
            · exact ⟨rfl, by rw [mget_mset_same, mget_mset_same]⟩
            · exact ⟨rfl, by rw [mget_mset_same, mget_mset_same]⟩
      exact ⟨by simp only [Topic.endFetch, this.1], this.2⟩
    · exact ⟨rfl, h.group⟩
  | _ => exact absurd he (fun h => h)

/-- **C53** An operation of one group (join, leave, acknowledgement, seek, or a step of a fetch) leaves every other group
of the topic and the log as they are, and the next operation of the other group gets the same answer and has the same
effect as if it had not happened.  For all states. -/
theorem C53_groups_independent (crc : Bytes → Nat) (t : Topic) (name name' : Str) (hne : name' ≠ name) (e e' : Ev)
    (he : Ev.of t name' e) (he' : Ev.of t name e') :
    mget (t.step crc e).1.groups name = mget t.groups name
    ∧ (t.step crc e).1.log = t.log
    ∧ ((t.step crc e).1.step crc e').2 = (t.step crc e').2
    ∧ mget ((t.step crc e).1.step crc e').1.groups name = mget (t.step crc e').1.groups name := by
  have h := other_same hne crc t e he
  exact ⟨h.group, h.log, own_same h crc e' he'⟩

example : Ev.of (Ex.t0.run Ex.crc (Ex.es1 ++ Ex.es2)) Ex.g (.attempt 1 101)
    ∧ Ev.of (Ex.t0.run Ex.crc (Ex.es1 ++ Ex.es2)) Ex.h (.seek Ex.h true) ∧ Ex.h ≠ Ex.g :=
  ⟨⟨_, rfl, rfl⟩, rfl, by decide⟩

end Verif.Stream
