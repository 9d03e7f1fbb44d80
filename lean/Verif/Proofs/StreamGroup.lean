import Verif.Spec.StreamGroup

/-!
# Invariant of a consumer group

`GCore head g F`: the group `g` agrees with the fates `F` that its observer has computed.
-/

namespace Verif.Stream

open Group

/-- The state of a group matches the fates of the messages, except that the floor may lag behind. -/
structure GCore (head : Nat) (g : Group) (F : Nat → Fate) : Prop where
  wf : MWF g.pending
  nodup : g.redeliver.Nodup
  held : ∀ s c t k, F s = .held c t k ↔ mget g.pending s = some ⟨c, t, k⟩
  waiting : ∀ s k, F s = .waiting k ↔ s ∈ g.redeliver ∧ mget g.attempts s = some k
  fresh : ∀ s, F s = .fresh ↔ g.next ≤ s
  heldCount : ∀ s c t k, F s = .held c t k → mget g.attempts s = some k ∧ 1 ≤ k ∧ k ≤ g.maxDeliveries
  waitCount : ∀ s k, F s = .waiting k → 1 ≤ k ∧ k < g.maxDeliveries
  redAtt : ∀ s, s ∈ g.redeliver → ∃ k, mget g.attempts s = some k
  attFresh : ∀ s, g.next ≤ s → mget g.attempts s = none
  floorLt : g.floor < g.next
  floorOk : ∀ s, s ≤ g.floor → mget g.pending s = none ∧ s ∉ g.redeliver
  headFloor : head - 1 ≤ g.floor
  headNext : max head 1 ≤ g.next
  belowPend : ∀ e ∈ g.pending, max head 1 ≤ e.1
  belowRed : ∀ s ∈ g.redeliver, max head 1 ≤ s
  belowPark : ∀ s ∈ g.parked, max head 1 ≤ s
  belowAtt : ∀ e ∈ g.attempts, max head 1 ≤ e.1
  bound : g.pending.length ≤ g.maxPending
  maxPos : 1 ≤ g.maxDeliveries

/-- The floor is as high as it can be. -/
def Tight (g : Group) : Prop :=
  g.floor + 1 = g.next ∨ (mget g.pending (g.floor + 1)).isSome ∨ g.floor + 1 ∈ g.redeliver

/-- Every message is held by a member. -/
def Members (g : Group) : Prop := ∀ s p, mget g.pending s = some p → mhas g.members p.consumer = true

/-- The invariant. -/
structure GInv (head : Nat) (g : Group) (F : Nat → Fate) : Prop where
  core : GCore head g F
  tight : Tight g
  mem : Members g

/-- The parts of a group that deliveries do not change. -/
structure Same (g g' : Group) : Prop where
  members : g'.members = g.members
  gen : g'.gen = g.gen
  epoch : g'.epoch = g.epoch
  maxPending : g'.maxPending = g.maxPending
  ackWait : g'.ackWait = g.ackWait
  maxDeliveries : g'.maxDeliveries = g.maxDeliveries
  cold : g'.fetchingCold = g.fetchingCold

theorem Same.refl (g : Group) : Same g g := ⟨rfl, rfl, rfl, rfl, rfl, rfl, rfl⟩

theorem Same.trans {a b c : Group} (h : Same a b) (h' : Same b c) : Same a c :=
  ⟨h'.1.trans h.1, h'.2.trans h.2, h'.3.trans h.3, h'.4.trans h.4, h'.5.trans h.5, h'.6.trans h.6, h'.7.trans h.7⟩

/-! ### Advancing the floor -/

theorem advanceN_spec (n : Nat) (g : Group) :
    ∃ f, advanceN n g = { g with floor := f } ∧ g.floor ≤ f ∧ (g.floor < g.next → f < g.next)
      ∧ (∀ s, g.floor < s → s ≤ f → mget g.pending s = none ∧ s ∉ g.redeliver)
      ∧ (g.next ≤ n + g.floor → g.floor < g.next →
          f + 1 = g.next ∨ (mget g.pending (f + 1)).isSome ∨ f + 1 ∈ g.redeliver) := by
  induction n generalizing g with
  | zero =>
    refine ⟨g.floor, rfl, Nat.le_refl _, id, fun s h1 h2 => by omega, fun h1 h2 => by omega⟩
  | succ n ih =>
    unfold advanceN
    split
    · next hc =>
      simp only [Bool.and_eq_true, decide_eq_true_eq, Bool.not_eq_true', mhas, Option.isSome_eq_false_iff,
        Option.isNone_iff_eq_none, List.contains_eq_mem, decide_eq_false_iff_not] at hc
      obtain ⟨f, h1, h2, h3, h4, h5⟩ := ih { g with floor := g.floor + 1 }
      refine ⟨f, h1, by have := h2; simp only at this; omega, fun _ => h3 hc.1.1, fun s a b => ?_, fun a b => ?_⟩
      · by_cases hs : s = g.floor + 1
        · subst hs; exact ⟨hc.1.2, hc.2⟩
        · exact h4 s (by simp only; omega) b
      · exact h5 (by simp only; omega) hc.1.1
    · next hc =>
      refine ⟨g.floor, rfl, Nat.le_refl _, id, fun s h1 h2 => by omega, fun h1 h2 => ?_⟩
      simp only [Bool.and_eq_true, decide_eq_true_eq, Bool.not_eq_true', mhas, List.contains_eq_mem,
        decide_eq_false_iff_not, not_and, Decidable.not_not] at hc
      by_cases hn : g.floor + 1 = g.next
      · exact .inl hn
      · cases hp : mget g.pending (g.floor + 1) with
        | some p => exact .inr (.inl rfl)
        | none => exact .inr (.inr (hc ⟨by omega, by rw [hp]; rfl⟩))

theorem advance_spec (g : Group) :
    ∃ f, advance g = { g with floor := f } ∧ g.floor ≤ f ∧ (g.floor < g.next → f < g.next)
      ∧ (∀ s, g.floor < s → s ≤ f → mget g.pending s = none ∧ s ∉ g.redeliver)
      ∧ (g.floor < g.next → f + 1 = g.next ∨ (mget g.pending (f + 1)).isSome ∨ f + 1 ∈ g.redeliver) := by
  obtain ⟨f, h1, h2, h3, h4, h5⟩ := advanceN_spec g.next g
  exact ⟨f, h1, h2, h3, h4, h5 (by omega)⟩

theorem GCore.advance {head : Nat} {g : Group} {F : Nat → Fate} (h : GCore head g F) :
    GCore head (advance g) F ∧ Tight (advance g) := by
  obtain ⟨f, h1, h2, h3, h4, h5⟩ := advance_spec g
  rw [h1]
  refine ⟨{ h with floorLt := h3 h.floorLt, floorOk := fun s hs => ?_, headFloor := Nat.le_trans h.headFloor h2 },
    h5 h.floorLt⟩
  by_cases hh : s ≤ g.floor
  · exact h.floorOk s hh
  · exact h4 s (by omega) hs

theorem advance_same (g : Group) : Same g (advance g) := by
  obtain ⟨f, h1, _⟩ := advance_spec g
  rw [h1]
  exact ⟨rfl, rfl, rfl, rfl, rfl, rfl, rfl⟩

theorem advance_pending (g : Group) : (advance g).pending = g.pending := by
  obtain ⟨f, h1, _⟩ := advance_spec g
  rw [h1]

theorem advance_redeliver (g : Group) : (advance g).redeliver = g.redeliver := by
  obtain ⟨f, h1, _⟩ := advance_spec g
  rw [h1]

theorem advance_next (g : Group) : (advance g).next = g.next := by
  obtain ⟨f, h1, _⟩ := advance_spec g
  rw [h1]

theorem advance_floor (g : Group) : g.floor ≤ (advance g).floor := by
  obtain ⟨f, h1, h2, _⟩ := advance_spec g
  rw [h1]; exact h2

theorem Members.advance {g : Group} (h : Members g) : Members (advance g) := by
  intro s p hp
  rw [advance_pending] at hp
  rw [(advance_same g).members]
  exact h s p hp

/-! ### Retention -/

/-- Nothing of the group lies below the head. -/
structure Clamped (head : Nat) (g : Group) : Prop where
  floor : head - 1 ≤ g.floor
  next : max head 1 ≤ g.next
  pend : ∀ e ∈ g.pending, max head 1 ≤ e.1
  red : ∀ s ∈ g.redeliver, max head 1 ≤ s
  park : ∀ s ∈ g.parked, max head 1 ≤ s
  att : ∀ e ∈ g.attempts, max head 1 ≤ e.1

theorem GCore.clamped {head : Nat} {g : Group} {F : Nat → Fate} (h : GCore head g F) : Clamped head g :=
  ⟨h.headFloor, h.headNext, h.belowPend, h.belowRed, h.belowPark, h.belowAtt⟩

theorem dropBelow_eq {head : Nat} {g : Group} (h : Clamped head g) : g.dropBelow (max head 1) = g := by
  unfold dropBelow
  have h1 : ¬ g.floor < max head 1 - 1 := by have := h.floor; omega
  have h2 : ¬ g.next < max head 1 := by have := h.next; omega
  rw [if_neg h1, if_neg h2]
  rw [List.filter_eq_self.2 (fun e he => by have := h.pend e he; simp only [Bool.not_eq_true', decide_eq_false_iff_not]; omega),
    List.filter_eq_self.2 (fun e he => by have := h.red e he; simp only [decide_eq_true_eq]; omega),
    List.filter_eq_self.2 (fun e he => by have := h.park e he; simp only [decide_eq_true_eq]; omega),
    List.filter_eq_self.2 (fun e he => by have := h.att e he; simp only [decide_eq_true_eq]; omega)]

theorem belowChanges_false {head : Nat} {g : Group} (h : Clamped head g) : g.belowChanges (max head 1) = false := by
  unfold belowChanges
  have h1 : ¬ g.floor < max head 1 - 1 := by have := h.floor; omega
  have h2 : ¬ g.next < max head 1 := by have := h.next; omega
  rw [List.filter_eq_nil_iff.2 (fun e he => by have := h.pend e he; simp only [decide_eq_true_eq]; omega),
    List.filter_eq_self.2 (fun e he => by have := h.red e he; simp only [decide_eq_true_eq]; omega),
    List.filter_eq_self.2 (fun e he => by have := h.park e he; simp only [decide_eq_true_eq]; omega),
    List.filter_eq_self.2 (fun e he => by have := h.att e he; simp only [decide_eq_true_eq]; omega)]
  simp [h1, h2]

/-- Clamping a clamped group does nothing. -/
theorem clampHead_noop {head : Nat} {g : Group} (h : Clamped head g) : g.clampHead head = (g, false) := by
  unfold clampHead
  rw [belowChanges_false h, if_neg (by simp), dropBelow_eq h]

theorem filter_length_self {α : Type} {p : α → Bool} {l : List α} (h : (l.filter p).length = l.length) :
    l.filter p = l := List.filter_eq_self.2 (List.length_filter_eq_length_iff.1 h)

theorem dropBelow_of_unchanged {h : Nat} {g : Group} (hc : g.belowChanges h = false) : g.dropBelow h = g := by
  unfold belowChanges at hc
  simp only [Bool.or_eq_false_iff, decide_eq_false_iff_not, Bool.not_eq_false', List.isEmpty_iff, ne_eq,
    Decidable.not_not] at hc
  obtain ⟨⟨⟨⟨⟨h1, h2⟩, h3⟩, h4⟩, h5⟩, h6⟩ := hc
  unfold dropBelow
  rw [if_neg h1, if_neg h2, filter_length_self h4, filter_length_self h5, filter_length_self h6]
  rw [List.filter_eq_self.2 (fun e he => by
    have := List.filter_eq_nil_iff.1 h3 e he
    simpa using this)]

theorem mget_filter_ge (m : List (Nat × Pend)) (h s : Nat) :
    mget (m.filter (fun e => !decide (e.1 < h))) s = if s < h then none else mget m s := by
  induction m with
  | nil => simp
  | cons e t ih =>
    simp only [List.filter_cons]
    by_cases he : e.1 < h
    · simp only [he, decide_true, Bool.not_true, if_neg (by simp : ¬ (false = true)), ih, mget_cons]
      by_cases hs : s < h
      · simp only [if_pos hs]
      · simp only [if_neg hs]
        rw [if_neg (by omega)]
    · simp only [he, decide_false, Bool.not_false, if_true, mget_cons, ih]
      by_cases hs : s < h
      · simp only [if_pos hs]
        rw [if_neg (by omega)]
      · simp only [if_neg hs]

theorem mget_filter_ge' (m : List (Nat × Nat)) (h s : Nat) :
    mget (m.filter (fun e => decide (h ≤ e.1))) s = if s < h then none else mget m s := by
  induction m with
  | nil => simp
  | cons e t ih =>
    simp only [List.filter_cons]
    by_cases he : h ≤ e.1
    · simp only [he, decide_true, if_true, mget_cons, ih]
      by_cases hs : s < h
      · simp only [if_pos hs]
        rw [if_neg (by omega)]
      · simp only [if_neg hs]
    · simp only [he, decide_false, if_neg (by simp : ¬ (false = true)), ih, mget_cons]
      by_cases hs : s < h
      · simp only [if_pos hs]
      · simp only [if_neg hs]
        rw [if_neg (by omega)]

theorem GCore.dropBelow {head : Nat} {g : Group} {F : Nat → Fate} (hc : GCore head g F) (h : Nat) (hp : 1 ≤ h) :
    GCore h (g.dropBelow h) (fun s => if s < h then .removed else F s) := by
  have hnext : (g.dropBelow h).next = max g.next h := by simp only [Group.dropBelow]; split <;> omega
  have hfloor : (g.dropBelow h).floor = max g.floor (h - 1) := by simp only [Group.dropBelow]; split <;> omega
  have hpend : ∀ s, mget (g.dropBelow h).pending s = if s < h then none else mget g.pending s :=
    fun s => mget_filter_ge _ _ _
  have hatt : ∀ s, mget (g.dropBelow h).attempts s = if s < h then none else mget g.attempts s :=
    fun s => mget_filter_ge' _ _ _
  have hred : ∀ s, s ∈ (g.dropBelow h).redeliver ↔ s ∈ g.redeliver ∧ h ≤ s := by
    intro s
    simp only [Group.dropBelow, List.mem_filter, decide_eq_true_eq]
  refine
    { wf := ?_, nodup := hc.nodup.filter _, held := ?_, waiting := ?_, fresh := ?_, heldCount := ?_, waitCount := ?_,
      redAtt := ?_, attFresh := ?_, floorLt := ?_, floorOk := ?_, headFloor := ?_, headNext := ?_, belowPend := ?_,
      belowRed := ?_, belowPark := ?_, belowAtt := ?_, bound := ?_, maxPos := hc.maxPos }
  · exact (List.filter_sublist.map _).nodup hc.wf
  · intro s c t k
    rw [hpend]
    by_cases hs : s < h
    · simp only [if_pos hs]
      constructor <;> intro hh <;> cases hh
    · simp only [if_neg hs]; exact hc.held s c t k
  · intro s k
    rw [hred, hatt]
    by_cases hs : s < h
    · simp only [if_pos hs]
      constructor
      · intro hh; cases hh
      · intro hh; omega
    · simp only [if_neg hs]
      rw [hc.waiting]
      constructor
      · exact fun hh => ⟨⟨hh.1, by omega⟩, hh.2⟩
      · exact fun hh => ⟨hh.1.1, hh.2⟩
  · intro s
    rw [hnext]
    by_cases hs : s < h
    · simp only [if_pos hs]
      constructor
      · intro hh; cases hh
      · intro hh; omega
    · simp only [if_neg hs]
      rw [hc.fresh]; omega
  · intro s c t k hh
    by_cases hs : s < h
    · simp only [if_pos hs] at hh; cases hh
    · simp only [if_neg hs] at hh
      rw [hatt, if_neg hs]
      exact hc.heldCount s c t k hh
  · intro s k hh
    by_cases hs : s < h
    · simp only [if_pos hs] at hh; cases hh
    · simp only [if_neg hs] at hh
      exact hc.waitCount s k hh
  · intro s hs
    rw [hred] at hs
    rw [hatt, if_neg (by omega)]
    exact hc.redAtt s hs.1
  · intro s hs
    rw [hnext] at hs
    rw [hatt, if_neg (by omega)]
    exact hc.attFresh s (by omega)
  · rw [hnext, hfloor]
    have := hc.floorLt
    omega
  · intro s hs
    rw [hfloor] at hs
    rw [hpend, hred]
    by_cases hh : s < h
    · rw [if_pos hh]; exact ⟨rfl, fun x => by omega⟩
    · rw [if_neg hh]
      have := hc.floorOk s (by omega)
      exact ⟨this.1, fun x => this.2 x.1⟩
  · rw [hfloor]; omega
  · rw [hnext]; have := hc.headNext; omega
  · intro e he
    have := (List.mem_filter.1 he).2
    simp only [Bool.not_eq_true', decide_eq_false_iff_not] at this
    omega
  · intro s hs
    rw [hred] at hs; omega
  · intro s hs
    have := (List.mem_filter.1 hs).2
    simp only [decide_eq_true_eq] at this
    omega
  · intro e he
    have := (List.mem_filter.1 he).2
    simp only [decide_eq_true_eq] at this
    omega
  · exact Nat.le_trans (List.length_filter_le _ _) hc.bound

/-- `GCore` speaks of the head only through `max head 1` and `head - 1`. -/
theorem GCore.max_one {h : Nat} {g : Group} {F : Nat → Fate} (hc : GCore (max h 1) g F) : GCore h g F :=
  { hc with
    headFloor := by have := hc.headFloor; omega
    headNext := by have := hc.headNext; omega
    belowPend := fun e he => by have := hc.belowPend e he; omega
    belowRed := fun e he => by have := hc.belowRed e he; omega
    belowPark := fun e he => by have := hc.belowPark e he; omega
    belowAtt := fun e he => by have := hc.belowAtt e he; omega }

theorem GCore.of_max_one {h : Nat} {g : Group} {F : Nat → Fate} (hc : GCore h g F) : GCore (max h 1) g F :=
  { hc with
    headFloor := by have := hc.headFloor; omega
    headNext := by have := hc.headNext; omega
    belowPend := fun e he => by have := hc.belowPend e he; omega
    belowRed := fun e he => by have := hc.belowRed e he; omega
    belowPark := fun e he => by have := hc.belowPark e he; omega
    belowAtt := fun e he => by have := hc.belowAtt e he; omega }

/-- Retention: everything below the new head is removed. -/
theorem GInv.clampHead {head : Nat} {g : Group} {F : Nat → Fate} (hi : GInv head g F) (h : Nat) :
    GInv h (g.clampHead h).1 (fun s => if s < max h 1 then .removed else F s) := by
  have hd := hi.core.dropBelow (max h 1) (by omega)
  have hm : Members (g.dropBelow (max h 1)) := by
    intro s p hp
    have : mget (g.dropBelow (max h 1)).pending s = if s < max h 1 then none else mget g.pending s :=
      mget_filter_ge _ _ _
    rw [this] at hp
    split at hp
    · cases hp
    · exact hi.mem s p hp
  unfold Group.clampHead
  split
  · have hd' : GCore (max h 1) { g.dropBelow (max h 1) with fetchingCold := false }
        (fun s => if s < max h 1 then .removed else F s) := { hd with }
    obtain ⟨h1, h2⟩ := hd'.advance
    have hm' : Members { g.dropBelow (max h 1) with fetchingCold := false } := hm
    exact ⟨{ h1.max_one with }, h2, hm'.advance⟩
  · next hc =>
    simp only [Bool.not_eq_true] at hc
    refine ⟨hd.max_one, ?_, hm⟩
    show Tight (g.dropBelow (max h 1))
    rw [dropBelow_of_unchanged hc]
    exact hi.tight

theorem clampHead_cfg (g : Group) (h : Nat) :
    (g.clampHead h).1.members = g.members ∧ (g.clampHead h).1.gen = g.gen ∧ (g.clampHead h).1.maxPending = g.maxPending
    ∧ (g.clampHead h).1.ackWait = g.ackWait ∧ (g.clampHead h).1.maxDeliveries = g.maxDeliveries := by
  unfold Group.clampHead
  split
  · have := advance_same { g.dropBelow (max h 1) with fetchingCold := false }
    exact ⟨this.1, this.2, this.4, this.5, this.6⟩
  · exact ⟨rfl, rfl, rfl, rfl, rfl⟩

/-! ### Deliveries -/

/-- A delivery of `s` is legal if `s` waits for redelivery, or is fresh and nothing before it is. -/
def LegalOne (max : Nat) (F : Nat → Fate) (s : Nat) : Prop :=
  (F s = .fresh ∧ ∀ s' < s, F s' ≠ .fresh) ∨ ∃ k, F s = .waiting k ∧ k < max

/-- A sequence of deliveries is legal. -/
def Legal (max wait : Nat) (c : Str) (now : Nat) : (Nat → Fate) → List Msg → Prop
  | _, [] => True
  | F, m :: ms => LegalOne max F m.seq ∧ Legal max wait c now (fates max wait F (.delivered c now m.seq)) ms

theorem Legal.append {max wait : Nat} {c : Str} {now : Nat} {F : Nat → Fate} {a b : List Msg} :
    Legal max wait c now F (a ++ b) ↔
      Legal max wait c now F a ∧ Legal max wait c now ((deliveries c now a).foldl (fates max wait) F) b := by
  induction a generalizing F with
  | nil => simp [Legal, deliveries]
  | cons m t ih =>
    simp only [List.cons_append, Legal, ih, deliveries, List.map_cons, List.foldl_cons, and_assoc]

theorem fates_delivered (max wait : Nat) (F : Nat → Fate) (c : Str) (now s : Nat) :
    fates max wait F (.delivered c now s) = fun s' => if s = s' then .held c now ((F s').count + 1) else F s' := by
  funext s'; rfl

theorem length_mset_new {V : Type} {m : List (Nat × V)} {k : Nat} (v : V) (h : mget m k = none) :
    (mset m k v).length = m.length + 1 := by
  have hf : mdel m k = m := List.filter_eq_self.2 (fun e he => by
    have := mget_eq_none.1 h
    simp only [decide_not, Bool.not_eq_true', decide_eq_false_iff_not, ne_eq]
    intro hk
    exact this (by subst hk; exact List.mem_map_of_mem he))
  simp [mset, hf]

/-- One message is handed to a consumer; `g` is the group after the message has left the redelivery queue, or after
`next` has passed it. -/
theorem GCore.hand {head : Nat} {g0 g : Group} {F : Nat → Fate} (hc : GCore head g0 F) {s : Nat} (c : Str) (now : Nat)
    (wait : Nat) (hk : (F s).count < g0.maxDeliveries)
    (hcase : (F s = .fresh ∧ s = g0.next ∧ g = { g0 with next := s + 1 })
      ∨ (∃ k, F s = .waiting k) ∧ g = { g0 with redeliver := g0.redeliver.erase s })
    (hb : g0.pending.length < g0.maxPending) :
    GCore head (hand g c now s) (fates g0.maxDeliveries wait F (.delivered c now s))
    ∧ (hand g c now s).pending.length = g0.pending.length + 1 ∧ g.attempt s = (F s).count + 1 := by
  rw [fates_delivered]
  -- facts that hold in both cases
  have hatt0 : (mget g0.attempts s).getD 0 = (F s).count := by
    rcases hcase with ⟨h1, h2, _⟩ | ⟨⟨k, h1⟩, _⟩
    · rw [hc.attFresh s (by omega), h1]; rfl
    · rw [((hc.waiting s k).1 h1).2, h1]; rfl
  have hpend0 : mget g0.pending s = none := by
    cases hp : mget g0.pending s with
    | none => rfl
    | some p =>
      have := (hc.held s p.consumer p.at_ p.count).2 hp
      rcases hcase with ⟨h1, _⟩ | ⟨⟨k, h1⟩, _⟩ <;> rw [h1] at this <;> cases this
  have ha : g.attempts = g0.attempts := by rcases hcase with ⟨_, _, h⟩ | ⟨_, h⟩ <;> rw [h]
  have hp : g.pending = g0.pending := by rcases hcase with ⟨_, _, h⟩ | ⟨_, h⟩ <;> rw [h]
  have hfl : g.floor = g0.floor := by rcases hcase with ⟨_, _, h⟩ | ⟨_, h⟩ <;> rw [h]
  have hpk : g.parked = g0.parked := by rcases hcase with ⟨_, _, h⟩ | ⟨_, h⟩ <;> rw [h]
  have hmd : g.maxDeliveries = g0.maxDeliveries := by rcases hcase with ⟨_, _, h⟩ | ⟨_, h⟩ <;> rw [h]
  have hmp : g.maxPending = g0.maxPending := by rcases hcase with ⟨_, _, h⟩ | ⟨_, h⟩ <;> rw [h]
  have hsnext : s < g.next := by
    rcases hcase with ⟨_, _, h⟩ | ⟨⟨k, h1⟩, h⟩
    · rw [h]; simp only; omega
    · rw [h]; simp only
      have : ¬ g0.next ≤ s := fun hn => by rw [(hc.fresh s).2 hn] at h1; cases h1
      omega
  have hnextge : g0.next ≤ g.next := by
    rcases hcase with ⟨_, h2, h⟩ | ⟨_, h⟩ <;> rw [h] <;> simp only <;> omega
  have hnext' : ∀ s', s' ≠ s → (g.next ≤ s' ↔ g0.next ≤ s') := by
    intro s' hs'
    rcases hcase with ⟨_, h2, h⟩ | ⟨_, h⟩ <;> rw [h] <;> simp only
    omega
  have hnd : g.redeliver.Nodup := by
    rcases hcase with ⟨_, _, h⟩ | ⟨_, h⟩ <;> rw [h]
    · exact hc.nodup
    · exact hc.nodup.erase _
  have hsred : s ∉ g.redeliver := by
    rcases hcase with ⟨h1, _, h⟩ | ⟨_, h⟩ <;> rw [h]
    · intro hm
      obtain ⟨k, hk⟩ := hc.redAtt s hm
      have := (hc.waiting s k).2 ⟨hm, hk⟩
      rw [h1] at this; cases this
    · exact hc.nodup.not_mem_erase
  have hred' : ∀ s', s' ≠ s → (s' ∈ g.redeliver ↔ s' ∈ g0.redeliver) := by
    intro s' hs'
    rcases hcase with ⟨_, _, h⟩ | ⟨_, h⟩ <;> rw [h]
    exact List.mem_erase_of_ne hs'
  have hredsub : ∀ s', s' ∈ g.redeliver → s' ∈ g0.redeliver := by
    intro s' hs'
    have : s' ≠ s := fun e => hsred (e ▸ hs')
    exact (hred' s' this).1 hs'
  have hsfloor : g0.floor < s := by
    rcases hcase with ⟨_, h2, _⟩ | ⟨⟨k, h1⟩, _⟩
    · have := hc.floorLt; omega
    · have h3 := ((hc.waiting s k).1 h1).1
      rcases Nat.lt_or_ge g0.floor s with h | h
      · exact h
      · exact absurd h3 (hc.floorOk s h).2
  have hshead : max head 1 ≤ s := by
    rcases hcase with ⟨_, h2, _⟩ | ⟨⟨k, h1⟩, _⟩
    · have := hc.headNext; omega
    · exact hc.belowRed s ((hc.waiting s k).1 h1).1
  have hat : g.attempt s = (F s).count + 1 := by unfold attempt; rw [ha, hatt0]
  refine ⟨?_, ?_, hat⟩
  · refine
      { wf := ?_, nodup := hnd, held := ?_, waiting := ?_, fresh := ?_, heldCount := ?_, waitCount := ?_,
        redAtt := ?_, attFresh := ?_, floorLt := ?_, floorOk := ?_, headFloor := ?_, headNext := ?_, belowPend := ?_,
        belowRed := ?_, belowPark := ?_, belowAtt := ?_, bound := ?_, maxPos := ?_ }
    · simp only [Group.hand, hp]; exact hc.wf.mset s _
    · intro s' c' t' k'
      simp only [Group.hand, hp, hat, mget_mset]
      by_cases hs : s = s'
      · subst hs
        rw [if_pos rfl, if_pos rfl]
        constructor
        · intro h; cases h; rfl
        · intro h; cases h; rfl
      · rw [if_neg hs, if_neg (fun e => hs e.symm)]
        exact hc.held s' c' t' k'
    · intro s' k'
      simp only [Group.hand, ha, hat, mget_mset]
      by_cases hs : s = s'
      · subst hs
        rw [if_pos rfl, if_pos rfl]
        constructor
        · intro h; cases h
        · intro h; exact absurd h.1 hsred
      · rw [if_neg hs, if_neg (fun e => hs e.symm), hc.waiting, hred' s' (fun e => hs e.symm)]
    · intro s'
      simp only [Group.hand]
      by_cases hs : s = s'
      · subst hs
        rw [if_pos rfl]
        constructor
        · intro h; cases h
        · intro h; omega
      · rw [if_neg hs, hc.fresh, hnext' s' (fun e => hs e.symm)]
    · intro s' c' t' k' h
      simp only [Group.hand, ha, hat, mget_mset, hmd]
      by_cases hs : s = s'
      · subst hs
        rw [if_pos rfl] at h
        rw [if_pos rfl]
        cases h
        exact ⟨rfl, by omega, by omega⟩
      · rw [if_neg hs] at h
        rw [if_neg (fun e => hs e.symm)]
        exact hc.heldCount s' c' t' k' h
    · intro s' k' h
      by_cases hs : s = s'
      · subst hs; simp only [if_pos rfl] at h; cases h
      · simp only [if_neg hs] at h
        have := hc.waitCount s' k' h
        simp only [Group.hand, hmd]; exact this
    · intro s' h
      simp only [Group.hand] at h
      simp only [Group.hand, ha, hat, mget_mset]
      by_cases hs : s' = s
      · rw [if_pos hs]; exact ⟨_, rfl⟩
      · rw [if_neg hs]; exact hc.redAtt s' (hredsub s' h)
    · intro s' h
      simp only [Group.hand] at h
      simp only [Group.hand, ha, hat, mget_mset]
      rw [if_neg (by omega)]
      exact hc.attFresh s' (by omega)
    · simp only [Group.hand, hfl]; have := hc.floorLt; omega
    · intro s' h
      simp only [Group.hand, hfl] at h
      simp only [Group.hand, hp, hat, mget_mset]
      rw [if_neg (by omega)]
      have := hc.floorOk s' h
      exact ⟨this.1, fun x => this.2 (hredsub s' x)⟩
    · simp only [Group.hand, hfl]; exact hc.headFloor
    · simp only [Group.hand]; have := hc.headNext; omega
    · intro e he
      simp only [Group.hand, hp, mset, List.mem_append, List.mem_singleton] at he
      rcases he with he | he
      · exact hc.belowPend e (List.mem_filter.1 he).1
      · rw [he]; exact hshead
    · intro s' h
      exact hc.belowRed s' (hredsub s' h)
    · intro s' h
      simp only [Group.hand, hpk] at h
      exact hc.belowPark s' h
    · intro e he
      simp only [Group.hand, ha, mset, List.mem_append, List.mem_singleton] at he
      rcases he with he | he
      · exact hc.belowAtt e (List.mem_filter.1 he).1
      · rw [he]; exact hshead
    · simp only [Group.hand, hp, hmp]
      rw [length_mset_new _ hpend0]; omega
    · simp only [Group.hand, hmd]; exact hc.maxPos
  · simp only [Group.hand, hp]
    rw [length_mset_new _ hpend0]

theorem Tight.of_hand {g0 g : Group} {head : Nat} {F : Nat → Fate} (hc : GCore head g0 F) (ht : Tight g0) {s : Nat} (c : Str) (now : Nat)
    (hcase : (F s = .fresh ∧ s = g0.next ∧ g = { g0 with next := s + 1 })
      ∨ (∃ k, F s = .waiting k) ∧ g = { g0 with redeliver := g0.redeliver.erase s }) :
    Tight (hand g c now s) := by
  unfold Tight at *
  simp only [hand, mget_mset]
  rcases hcase with ⟨_, h2, h⟩ | ⟨_, h⟩ <;> subst h <;> simp only
  · by_cases he : g0.floor + 1 = s
    · right; left; rw [if_pos he]; rfl
    · rw [if_neg he]
      rcases ht with ht | ht | ht
      · omega
      · exact .inr (.inl ht)
      · exact .inr (.inr ht)
  · by_cases he : g0.floor + 1 = s
    · right; left; rw [if_pos he]; rfl
    · rw [if_neg he]
      rcases ht with ht | ht | ht
      · exact .inl ht
      · exact .inr (.inl ht)
      · exact .inr (.inr ((List.mem_erase_of_ne he).2 ht))

theorem hand_same (g : Group) (c : Str) (now s : Nat) : Same g (hand g c now s) := ⟨rfl, rfl, rfl, rfl, rfl, rfl, rfl⟩

theorem Members.hand {g : Group} (h : Members g) {c : Str} (hcm : mhas g.members c = true) (now s : Nat) :
    Members (hand g c now s) := by
  intro s' p hp
  simp only [Group.hand, mget_mset] at hp
  split at hp
  · cases hp; exact hcm
  · exact h s' p hp

/-- What one step of a delivery loop guarantees. -/
structure Delivered (wait : Nat) (c : Str) (now head : Nat) (g : Group) (F : Nat → Fate) (g' : Group) (ms : List Msg) : Prop where
  inv : GInv head g' ((deliveries c now ms).foldl (fates g.maxDeliveries wait) F)
  legal : Legal g.maxDeliveries wait c now F ms
  same : Same g g'
  count : g'.pending.length = g.pending.length + ms.length

theorem Delivered.nil {wait : Nat} {c : Str} {now head : Nat} {g : Group} {F : Nat → Fate} (h : GInv head g F) :
    Delivered wait c now head g F g [] := ⟨h, trivial, Same.refl g, rfl⟩

theorem Delivered.trans {wait : Nat} {c : Str} {now head : Nat} {g g1 g2 : Group} {F : Nat → Fate} {a b : List Msg}
    (h1 : Delivered wait c now head g F g1 a)
    (h2 : Delivered wait c now head g1 ((deliveries c now a).foldl (fates g.maxDeliveries wait) F) g2 b) :
    Delivered wait c now head g F g2 (a ++ b) := by
  have hm := h1.same.maxDeliveries
  refine ⟨?_, Legal.append.2 ⟨h1.legal, hm ▸ h2.legal⟩, h1.same.trans h2.same, ?_⟩
  · have := h2.inv
    rw [hm] at this
    simp only [deliveries, List.map_append, List.foldl_append] at this ⊢
    exact this
  · rw [h2.count, h1.count, List.length_append]; omega

theorem Delivered.one {wait : Nat} {c : Str} {now head : Nat} {g0 g : Group} {F : Nat → Fate} (h : GInv head g0 F)
    {m : Msg} (hcm : mhas g0.members c = true)
    (hcase : (F m.seq = .fresh ∧ m.seq = g0.next ∧ g = { g0 with next := m.seq + 1 })
      ∨ (∃ k, F m.seq = .waiting k) ∧ g = { g0 with redeliver := g0.redeliver.erase m.seq })
    (hb : g0.pending.length < g0.maxPending) :
    issue g c now m = (hand g c now m.seq, some m) ∧ Delivered wait c now head g0 F (hand g c now m.seq) [m] := by
  have hk : (F m.seq).count < g0.maxDeliveries := by
    rcases hcase with ⟨h1, _⟩ | ⟨⟨k, h1⟩, _⟩
    · rw [h1]; exact h.core.maxPos
    · rw [h1]; exact (h.core.waitCount _ _ h1).2
  obtain ⟨h1, h2, h3⟩ := h.core.hand c now wait hk hcase hb
  have hmd : g.maxDeliveries = g0.maxDeliveries := by rcases hcase with ⟨_, _, h⟩ | ⟨_, h⟩ <;> rw [h]
  have hsame : Same g0 (hand g c now m.seq) := by
    rcases hcase with ⟨_, _, h⟩ | ⟨_, h⟩ <;> rw [h] <;> exact ⟨rfl, rfl, rfl, rfl, rfl, rfl, rfl⟩
  have hmem : Members g ∧ g.members = g0.members := by
    rcases hcase with ⟨_, _, e⟩ | ⟨_, e⟩ <;> subst e <;> exact ⟨h.mem, rfl⟩
  refine ⟨?_, ⟨h1, Tight.of_hand h.core h.tight c now hcase, ?_⟩, ⟨?_, trivial⟩, hsame, h2⟩
  · unfold issue
    rw [h3, hmd, if_neg (by omega)]
  · exact hmem.1.hand (hmem.2 ▸ hcm) now m.seq
  · rcases hcase with ⟨e1, e2, _⟩ | ⟨⟨k, e1⟩, _⟩
    · refine .inl ⟨e1, fun s' hs' hf => ?_⟩
      have := (h.core.fresh s').1 hf
      omega
    · exact .inr ⟨k, e1, (h.core.waitCount _ _ e1).2⟩

/-- Reading the window at a position gives the message with that number. -/
def WindowOk (log : List Msg) (ramStart : Nat) : Prop := ∀ i m, log[i]? = some m → m.seq = ramStart + i

theorem readFromLog_seq {log : List Msg} {rs s : Nat} {m : Msg} (hw : WindowOk log rs)
    (h : readFromLog log rs s = some m) : m.seq = s ∧ rs ≤ s ∧ log[s - rs]? = some m := by
  unfold readFromLog at h
  split at h
  · cases h
  · next hc =>
    simp only [Bool.or_eq_true, decide_eq_true_eq, List.isEmpty_iff, not_or] at hc
    have := hw _ _ h
    exact ⟨by omega, by omega, h⟩

theorem redeliverLoop_spec {wait head : Nat} {a : Ask} {budget p0 : Nat} (hh : a.head = head)
    (hw : WindowOk a.log a.ramStart) (q : List Nat) (g : Group) (F : Nat → Fate) (acc : List Msg)
    (h : GInv head g F) (hq : g.redeliver = q) (hcm : mhas g.members a.consumer = true)
    (hp : g.pending.length = p0 + acc.length) (hb : budget ≤ g.maxPending - p0) :
    ∃ ms, (redeliverLoop a budget q g acc).2 = acc ++ ms
      ∧ Delivered wait a.consumer a.now head g F (redeliverLoop a budget q g acc).1 ms
      ∧ (∀ m ∈ ms, m ∈ a.log) ∧ (acc.length ≤ budget → (acc ++ ms).length ≤ budget) := by
  induction q generalizing g F acc with
  | nil => exact ⟨[], by simp [redeliverLoop], Delivered.nil h, by simp, fun x => by simpa using x⟩
  | cons s q ih =>
    have hstop : ∃ ms, ((g, acc) : Group × List Msg).2 = acc ++ ms
        ∧ Delivered wait a.consumer a.now head g F ((g, acc) : Group × List Msg).1 ms
        ∧ (∀ m ∈ ms, m ∈ a.log) ∧ (acc.length ≤ budget → (acc ++ ms).length ≤ budget) :=
      ⟨[], by simp, Delivered.nil h, by simp, fun x => by simpa using x⟩
    have hsmem : s ∈ g.redeliver := by rw [hq]; simp
    unfold redeliverLoop
    by_cases hlt : acc.length < budget
    · rw [if_pos hlt]
      have hsh : ¬ s < a.head := by
        have := h.core.belowRed s hsmem
        omega
      rw [if_neg hsh]
      cases hr : readFromLog a.log a.ramStart s with
      | none => exact hstop
      | some m =>
        simp only
        obtain ⟨e1, _, e3⟩ := readFromLog_seq hw hr
        obtain ⟨k, hk⟩ := h.core.redAtt s hsmem
        have hF : F m.seq = .waiting k := by rw [e1]; exact (h.core.waiting s k).2 ⟨hsmem, hk⟩
        have herase : ({ g with redeliver := q } : Group) = { g with redeliver := g.redeliver.erase m.seq } := by
          rw [hq, e1, List.erase_cons_head]
        obtain ⟨i1, i2⟩ := Delivered.one (wait := wait) (now := a.now) h hcm (g := { g with redeliver := q })
          (.inr ⟨⟨k, hF⟩, herase⟩) (by rw [hp]; omega)
        rw [i1]
        obtain ⟨ms, j1, j2, j3, j4⟩ := ih (hand { g with redeliver := q } a.consumer a.now m.seq) _ (acc ++ [m])
          i2.inv (by simp [hand]) (by rw [i2.same.members]; exact hcm)
          (by rw [i2.count, hp]; simp; omega) (by rw [i2.same.maxPending]; exact hb)
        refine ⟨m :: ms, by simpa using j1, ?_, ?_, ?_⟩
        · exact i2.trans j2
        · intro x hx
          rcases List.mem_cons.1 hx with rfl | hx
          · exact List.mem_of_getElem? e3
          · exact j3 x hx
        · intro _
          have := j4 (by simp; omega)
          simpa using this
    · rw [if_neg hlt]; exact hstop

theorem freshLoop_spec {wait head : Nat} {a : Ask} {budget p0 : Nat} (hh : a.head = head)
    (hw : WindowOk a.log a.ramStart) (n : Nat) (g : Group) (F : Nat → Fate) (acc : List Msg)
    (h : GInv head g F) (hcm : mhas g.members a.consumer = true)
    (hp : g.pending.length = p0 + acc.length) (hb : budget ≤ g.maxPending - p0) :
    ∃ ms, (freshLoop a budget n g acc).2 = acc ++ ms
      ∧ Delivered wait a.consumer a.now head g F (freshLoop a budget n g acc).1 ms
      ∧ (∀ m ∈ ms, m ∈ a.log) ∧ (acc.length ≤ budget → (acc ++ ms).length ≤ budget) := by
  induction n generalizing g F acc with
  | zero => exact ⟨[], by simp [freshLoop], Delivered.nil h, by simp, fun x => by simpa using x⟩
  | succ n ih =>
    have hstop : ∃ ms, ((g, acc) : Group × List Msg).2 = acc ++ ms
        ∧ Delivered wait a.consumer a.now head g F ((g, acc) : Group × List Msg).1 ms
        ∧ (∀ m ∈ ms, m ∈ a.log) ∧ (acc.length ≤ budget → (acc ++ ms).length ≤ budget) :=
      ⟨[], by simp, Delivered.nil h, by simp, fun x => by simpa using x⟩
    have hnh : ¬ g.next < a.head := by have := h.core.headNext; omega
    have hmax : max g.next a.head = g.next := by omega
    have hskip : skipRemoved g a.head = g := by unfold skipRemoved; rw [if_neg hnh]
    unfold freshLoop
    rw [hskip, hmax]
    by_cases hlt : acc.length < budget
    · rw [if_pos hlt]
      cases hr : readFromLog a.log a.ramStart g.next with
      | none => exact hstop
      | some m =>
        simp only
        obtain ⟨e1, _, e3⟩ := readFromLog_seq hw hr
        obtain ⟨i1, i2⟩ := Delivered.one (wait := wait) (now := a.now) h hcm (g := { g with next := g.next + 1 })
          (m := m) (.inl ⟨by rw [e1]; exact (h.core.fresh _).2 (Nat.le_refl _), e1, by rw [e1]⟩) (by rw [hp]; omega)
        rw [i1]
        obtain ⟨ms, j1, j2, j3, j4⟩ := ih (hand { g with next := g.next + 1 } a.consumer a.now m.seq) _ (acc ++ [m])
          i2.inv (by rw [i2.same.members]; exact hcm)
          (by rw [i2.count, hp]; simp; omega) (by rw [i2.same.maxPending]; exact hb)
        refine ⟨m :: ms, by simpa using j1, ?_, ?_, ?_⟩
        · exact i2.trans j2
        · intro x hx
          rcases List.mem_cons.1 hx with rfl | hx
          · exact List.mem_of_getElem? e3
          · exact j3 x hx
        · intro _
          have := j4 (by simp; omega)
          simpa using this
    · rw [if_neg hlt]; exact hstop

/-- `fetch` from memory. -/
theorem deliver_spec {wait head : Nat} {a : Ask} (hh : a.head = head) (hw : WindowOk a.log a.ramStart) (g : Group)
    (F : Nat → Fate) (limit : Nat) (h : GInv head g F) (hcm : mhas g.members a.consumer = true) :
    Delivered wait a.consumer a.now head g F (deliver g a limit).1 (deliver g a limit).2
    ∧ (∀ m ∈ (deliver g a limit).2, m ∈ a.log) ∧ (deliver g a limit).2.length ≤ limit := by
  unfold deliver
  by_cases hbp : g.maxPending ≤ g.pending.length
  · rw [if_pos hbp]; exact ⟨Delivered.nil h, by simp, by simp⟩
  · rw [if_neg hbp]
    obtain ⟨m1, a1, a2, a3, a4⟩ := redeliverLoop_spec (wait := wait) (p0 := g.pending.length)
      (budget := min limit (g.maxPending - g.pending.length)) hh hw g.redeliver g F [] h rfl hcm (by simp) (by omega)
    rw [List.nil_append] at a1
    rw [a1]
    obtain ⟨m2, b1, b2, b3, b4⟩ := freshLoop_spec (wait := wait) (p0 := g.pending.length)
      (budget := min limit (g.maxPending - g.pending.length)) hh hw (a.log.length + 1) _ _ m1 a2.inv
      (by rw [a2.same.members]; exact hcm) a2.count (by rw [a2.same.maxPending]; omega)
    rw [b1]
    refine ⟨a2.trans b2, ?_, ?_⟩
    · intro x hx
      rcases List.mem_append.1 hx with hx | hx
      · exact a3 x hx
      · exact b3 x hx
    · have := a4 (by simp)
      have := b4 (by simpa using this)
      omega

/-- Messages read from disk. -/
theorem coldLoop_spec {wait head : Nat} {c : Str} {now : Nat} (msgs : List Msg) (g : Group) (F : Nat → Fate)
    (acc : List Msg) (h : GInv head g F) (hcm : mhas g.members c = true) :
    ∃ ms, (Group.coldLoop c now head msgs g acc).2 = acc ++ ms
      ∧ Delivered wait c now head g F (Group.coldLoop c now head msgs g acc).1 ms
      ∧ ms.Sublist msgs := by
  induction msgs generalizing g F acc with
  | nil => exact ⟨[], by simp [Group.coldLoop], Delivered.nil h, by simp⟩
  | cons m t ih =>
    unfold Group.coldLoop
    by_cases hbp : g.maxPending ≤ g.pending.length
    · rw [if_pos hbp]; exact ⟨[], by simp, Delivered.nil h, by simp⟩
    · rw [if_neg hbp]
      by_cases hlow : m.seq < head
      · rw [if_pos hlow]
        obtain ⟨ms, j1, j2, j3⟩ := ih g F acc h hcm
        exact ⟨ms, j1, j2, j3.cons _⟩
      · rw [if_neg hlow]
        have hmax : max g.next (max head 1) = g.next := by have := h.core.headNext; omega
        have hnh : ¬ g.next < head := by have := h.core.headNext; omega
        rw [hmax]
        by_cases hcond : (g.redeliver.contains m.seq || decide (m.seq = g.next)) = true
        · rw [if_pos hcond]
          simp only [List.contains_eq_mem, Bool.or_eq_true, decide_eq_true_eq] at hcond
          have key : issue (coldReady { g with redeliver := g.redeliver.erase m.seq } head m.seq) c now m
                = (hand (coldReady { g with redeliver := g.redeliver.erase m.seq } head m.seq) c now m.seq, some m)
              ∧ Delivered wait c now head g F
                (hand (coldReady { g with redeliver := g.redeliver.erase m.seq } head m.seq) c now m.seq) [m] := by
            by_cases hf : m.seq = g.next
            · have hF : F m.seq = .fresh := (h.core.fresh _).2 (by omega)
              have hnot : m.seq ∉ g.redeliver := by
                intro hm
                obtain ⟨k, hk⟩ := h.core.redAtt _ hm
                have := (h.core.waiting _ k).2 ⟨hm, hk⟩
                rw [hF] at this; cases this
              have : coldReady { g with redeliver := g.redeliver.erase m.seq } head m.seq
                  = { g with next := m.seq + 1 } := by
                unfold coldReady skipRemoved
                rw [List.erase_of_not_mem hnot]
                simp only [hmax, if_pos hf, if_neg hnh]
              rw [this]
              exact Delivered.one h hcm (.inl ⟨hF, hf, rfl⟩) (by omega)
            · have hm : m.seq ∈ g.redeliver := by
                rcases hcond with hm | hm
                · exact hm
                · exact absurd hm hf
              obtain ⟨k, hk⟩ := h.core.redAtt _ hm
              have hF := (h.core.waiting _ k).2 ⟨hm, hk⟩
              have : coldReady { g with redeliver := g.redeliver.erase m.seq } head m.seq
                  = { g with redeliver := g.redeliver.erase m.seq } := by
                unfold coldReady skipRemoved
                simp only [hmax, if_neg hf, if_neg hnh]
              rw [this]
              exact Delivered.one h hcm (.inr ⟨⟨k, hF⟩, rfl⟩) (by omega)
          obtain ⟨i1, i2⟩ := key
          rw [i1]
          obtain ⟨ms, j1, j2, j3⟩ := ih _ _ (acc ++ [m]) i2.inv (by rw [i2.same.members]; exact hcm)
          exact ⟨m :: ms, by simpa using j1, i2.trans j2, j3.cons_cons _⟩
        · rw [if_neg hcond]
          simp only [List.contains_eq_mem, Bool.or_eq_true, decide_eq_true_eq, not_or] at hcond
          have : coldReady g head m.seq = g := by
            unfold coldReady skipRemoved
            simp only [hmax, if_neg hcond.2, if_neg hnh]
          rw [this]
          obtain ⟨ms, j1, j2, j3⟩ := ih g F acc h hcm
          exact ⟨ms, j1, j2, j3.cons _⟩

/-! ### Taking messages back -/

/-- A release of the messages in `L`. -/
def releaseAll (max : Nat) (F : Nat → Fate) (L : List Nat) : Nat → Fate := fun s => if s ∈ L then (F s).release max else F s

theorem release_idem (max : Nat) (f : Fate) : (f.release max).release max = f.release max := by
  cases f with
  | held c t k => by_cases h : max ≤ k <;> simp [Fate.release, h]
  | _ => rfl

theorem GCore.takeBack {head : Nat} {g : Group} {F : Nat → Fate} (hc : GCore head g F) (s : Nat) :
    GCore head (g.takeBack s) (releaseAll g.maxDeliveries F [s]) ∧ Same g (g.takeBack s)
    ∧ (g.takeBack s).next = g.next ∧ (g.takeBack s).floor = g.floor
    ∧ (∀ s' p, mget (g.takeBack s).pending s' = some p → s' ≠ s ∧ mget g.pending s' = some p) := by
  cases hp : mget g.pending s with
  | none =>
    have : g.takeBack s = g := by unfold Group.takeBack; rw [hp]
    rw [this]
    have hF : releaseAll g.maxDeliveries F [s] = F := by
      funext s'
      unfold releaseAll
      split
      · next h =>
        simp only [List.mem_singleton] at h
        subst h
        cases hf : F s' with
        | held c t k => rw [(hc.held s' c t k).1 hf] at hp; cases hp
        | _ => rfl
      · rfl
    rw [hF]
    exact ⟨hc, Same.refl g, rfl, rfl, fun s' p h => ⟨(fun e => by subst e; rw [hp] at h; cases h), h⟩⟩
  | some p =>
    have hF := (hc.held s p.consumer p.at_ p.count).2 hp
    obtain ⟨hatt, hk1, hk2⟩ := hc.heldCount _ _ _ _ hF
    have hns : ¬ g.next ≤ s := fun h => by rw [(hc.fresh s).2 h] at hF; cases hF
    have hsr : s ∉ g.redeliver := by
      intro hm
      obtain ⟨k, hk⟩ := hc.redAtt s hm
      have := (hc.waiting s k).2 ⟨hm, hk⟩
      rw [hF] at this; cases this
    have hsf : g.floor < s := by
      rcases Nat.lt_or_ge g.floor s with h | h
      · exact h
      · have := (hc.floorOk s h).1; rw [hp] at this; cases this
    have hsh : max head 1 ≤ s := hc.belowPend _ (mget_some_mem hp)
    have htb : g.takeBack s = releaseSeq { g with pending := mdel g.pending s } s p.count := by
      unfold Group.takeBack; rw [hp]
    have hFs : ∀ s', releaseAll g.maxDeliveries F [s] s' = if s' = s then (if g.maxDeliveries ≤ p.count then .gaveUp else .waiting p.count) else F s' := by
      intro s'
      simp only [releaseAll, List.mem_singleton]
      by_cases h : s' = s
      · subst h; rw [if_pos rfl, if_pos rfl, hF]; rfl
      · rw [if_neg h, if_neg h]
    have hlen : (mdel g.pending s).length ≤ g.maxPending := Nat.le_trans (List.length_filter_le _ _) hc.bound
    rw [htb]
    unfold releaseSeq
    by_cases hm : g.maxDeliveries ≤ p.count
    · simp only [if_pos hm]
      refine ⟨?_, ⟨rfl, rfl, rfl, rfl, rfl, rfl, rfl⟩, (by first | rfl | trivial), (by first | rfl | trivial), ?_⟩
      · refine
          { wf := hc.wf.mdel s, nodup := hc.nodup, held := ?_, waiting := ?_, fresh := ?_, heldCount := ?_,
            waitCount := ?_, redAtt := ?_, attFresh := ?_, floorLt := hc.floorLt, floorOk := ?_,
            headFloor := hc.headFloor, headNext := hc.headNext, belowPend := ?_, belowRed := hc.belowRed,
            belowPark := ?_, belowAtt := ?_, bound := hlen, maxPos := hc.maxPos }
        · intro s' c t k
          rw [hFs, if_pos hm]
          simp only [mget_mdel]
          by_cases h : s' = s
          · rw [if_pos h, if_pos h]; constructor <;> intro x <;> cases x
          · rw [if_neg h, if_neg h]; exact hc.held s' c t k
        · intro s' k
          rw [hFs, if_pos hm]
          simp only [mget_mdel]
          by_cases h : s' = s
          · rw [if_pos h, if_pos h]; constructor
            · intro x; cases x
            · intro x; cases x.2
          · rw [if_neg h, if_neg h]; exact hc.waiting s' k
        · intro s'
          rw [hFs, if_pos hm]
          by_cases h : s' = s
          · rw [if_pos h]; subst h; constructor
            · intro x; cases x
            · intro x; exact absurd x hns
          · rw [if_neg h]; exact hc.fresh s'
        · intro s' c t k hh
          rw [hFs, if_pos hm] at hh
          by_cases h : s' = s
          · rw [if_pos h] at hh; cases hh
          · rw [if_neg h] at hh
            simp only [mget_mdel, if_neg h]
            exact hc.heldCount s' c t k hh
        · intro s' k hh
          rw [hFs, if_pos hm] at hh
          by_cases h : s' = s
          · rw [if_pos h] at hh; cases hh
          · rw [if_neg h] at hh; exact hc.waitCount s' k hh
        · intro s' hh
          have h : s' ≠ s := fun e => hsr (e ▸ hh)
          simp only [mget_mdel, if_neg h]
          exact hc.redAtt s' hh
        · intro s' hh
          simp only [mget_mdel]
          split
          · rfl
          · exact hc.attFresh s' hh
        · intro s' hh
          simp only [mget_mdel]
          rw [if_neg (by simp only at hh; omega)]
          exact hc.floorOk s' hh
        · intro e he
          exact hc.belowPend e (List.mem_filter.1 he).1
        · intro s' hh
          simp only [sinsert] at hh
          split at hh
          · exact hc.belowPark s' hh
          · rcases List.mem_append.1 hh with hh | hh
            · exact hc.belowPark s' hh
            · rw [List.mem_singleton.1 hh]; exact hsh
        · intro e he
          exact hc.belowAtt e (List.mem_filter.1 he).1
      · intro s' p' hh
        simp only [mget_mdel] at hh
        split at hh
        · cases hh
        · next h => exact ⟨h, hh⟩
    · simp only [if_neg hm]
      have hcn : (g.redeliver.contains s) = false := by simpa using hsr
      rw [hcn, if_neg (by simp)]
      refine ⟨?_, ⟨rfl, rfl, rfl, rfl, rfl, rfl, rfl⟩, (by first | rfl | trivial), (by first | rfl | trivial), ?_⟩
      · refine
          { wf := hc.wf.mdel s, nodup := ?_, held := ?_, waiting := ?_, fresh := ?_, heldCount := ?_,
            waitCount := ?_, redAtt := ?_, attFresh := hc.attFresh, floorLt := hc.floorLt, floorOk := ?_,
            headFloor := hc.headFloor, headNext := hc.headNext, belowPend := ?_, belowRed := ?_,
            belowPark := hc.belowPark, belowAtt := hc.belowAtt, bound := hlen, maxPos := hc.maxPos }
        · rw [List.nodup_append]
          exact ⟨hc.nodup, by simp, fun a ha b hb => by rw [List.mem_singleton.1 hb]; exact fun e => hsr (e ▸ ha)⟩
        · intro s' c t k
          rw [hFs, if_neg hm]
          simp only [mget_mdel]
          by_cases h : s' = s
          · rw [if_pos h, if_pos h]; constructor <;> intro x <;> cases x
          · rw [if_neg h, if_neg h]; exact hc.held s' c t k
        · intro s' k
          rw [hFs, if_neg hm]
          simp only [List.mem_append, List.mem_singleton]
          by_cases h : s' = s
          · rw [if_pos h]; subst h
            rw [hatt]
            constructor
            · intro x; cases x; exact ⟨.inr rfl, rfl⟩
            · intro x; cases x.2; rfl
          · rw [if_neg h, hc.waiting]
            constructor
            · exact fun x => ⟨.inl x.1, x.2⟩
            · exact fun x => ⟨x.1.resolve_right h, x.2⟩
        · intro s'
          rw [hFs, if_neg hm]
          by_cases h : s' = s
          · rw [if_pos h]; subst h; constructor
            · intro x; cases x
            · intro x; exact absurd x hns
          · rw [if_neg h]; exact hc.fresh s'
        · intro s' c t k hh
          rw [hFs, if_neg hm] at hh
          by_cases h : s' = s
          · rw [if_pos h] at hh; cases hh
          · rw [if_neg h] at hh
            exact hc.heldCount s' c t k hh
        · intro s' k hh
          rw [hFs, if_neg hm] at hh
          by_cases h : s' = s
          · rw [if_pos h] at hh; cases hh; exact ⟨hk1, by simp only; omega⟩
          · rw [if_neg h] at hh; exact hc.waitCount s' k hh
        · intro s' hh
          rcases List.mem_append.1 hh with hh | hh
          · exact hc.redAtt s' hh
          · rw [List.mem_singleton.1 hh]; exact ⟨_, hatt⟩
        · intro s' hh
          simp only [mget_mdel, List.mem_append, List.mem_singleton, not_or]
          simp only at hh
          rw [if_neg (by omega)]
          exact ⟨(hc.floorOk s' hh).1, (hc.floorOk s' hh).2, by omega⟩
        · intro e he
          exact hc.belowPend e (List.mem_filter.1 he).1
        · intro s' hh
          rcases List.mem_append.1 hh with hh | hh
          · exact hc.belowRed s' hh
          · rw [List.mem_singleton.1 hh]; exact hsh
      · intro s' p' hh
        simp only [mget_mdel] at hh
        split at hh
        · cases hh
        · next h => exact ⟨h, hh⟩

theorem releaseAll_append (max : Nat) (F : Nat → Fate) (a b : List Nat) :
    releaseAll max (releaseAll max F a) b = releaseAll max F (a ++ b) := by
  funext s
  simp only [releaseAll, List.mem_append]
  by_cases h1 : s ∈ a <;> by_cases h2 : s ∈ b <;> simp [h1, h2, release_idem]

theorem GCore.takeBackAll {head : Nat} (L : List Nat) {g : Group} {F : Nat → Fate} (hc : GCore head g F) :
    GCore head (L.foldl Group.takeBack g) (releaseAll g.maxDeliveries F L) ∧ Same g (L.foldl Group.takeBack g)
    ∧ (L.foldl Group.takeBack g).next = g.next ∧ (L.foldl Group.takeBack g).floor = g.floor
    ∧ (∀ s' p, mget (L.foldl Group.takeBack g).pending s' = some p → s' ∉ L ∧ mget g.pending s' = some p) := by
  induction L generalizing g F with
  | nil =>
    refine ⟨?_, Same.refl g, rfl, rfl, fun s p h => ⟨by simp, h⟩⟩
    have : releaseAll g.maxDeliveries F [] = F := by funext s; simp [releaseAll]
    rw [this]; exact hc
  | cons s L ih =>
    obtain ⟨a1, a2, a3, a4, a5⟩ := hc.takeBack s
    obtain ⟨b1, b2, b3, b4, b5⟩ := ih a1
    simp only [List.foldl_cons]
    refine ⟨?_, a2.trans b2, by rw [b3, a3], by rw [b4, a4], fun s' p h => ?_⟩
    · rw [a2.maxDeliveries, releaseAll_append] at b1
      exact b1
    · have h1 := b5 s' p h
      have h2 := a5 s' p h1.2
      exact ⟨by simp [h2.1, h1.1], h2.2⟩

theorem iterOrder_mem (order xs : List Nat) (s : Nat) : s ∈ iterOrder order xs ↔ s ∈ xs := by
  unfold iterOrder
  split
  · next h => exact (List.isPerm_iff.1 h).mem_iff
  · exact Iff.rfl

theorem mem_mkeys_filter {m : List (Nat × Pend)} (hwf : MWF m) (p : Nat × Pend → Bool) (s : Nat) :
    s ∈ mkeys (m.filter p) ↔ ∃ v, mget m s = some v ∧ p (s, v) = true := by
  simp only [mkeys, List.mem_map, List.mem_filter]
  constructor
  · rintro ⟨e, ⟨he, hp⟩, rfl⟩
    exact ⟨e.2, hwf.mem_iff.1 he, hp⟩
  · rintro ⟨v, hv, hp⟩
    exact ⟨(s, v), ⟨mget_some_mem hv, hp⟩, rfl⟩

/-- The messages that a predicate on holders selects are taken back. -/
theorem releaseAll_held {head : Nat} {g : Group} {F : Nat → Fate} (hc : GCore head g F) (order : List Nat)
    (p : Nat × Pend → Bool) :
    releaseAll g.maxDeliveries F (iterOrder order (mkeys (g.pending.filter p))) =
      fun s => match F s with
        | .held c t k => if p (s, ⟨c, t, k⟩) then (Fate.held c t k).release g.maxDeliveries else .held c t k
        | f => f := by
  funext s
  simp only [releaseAll, iterOrder_mem, mem_mkeys_filter hc.wf]
  cases hf : F s with
  | held c t k =>
    have hp := (hc.held s c t k).1 hf
    simp only [hp, Option.some.injEq, exists_eq_left']
  | _ => simp only [Fate.release, ite_self]

theorem releaseConsumer_spec {head : Nat} {g : Group} {F : Nat → Fate} (hc : GCore head g F) (c : Str) (order : List Nat)
    (wait : Nat) :
    GCore head (g.releaseConsumer c order) (fates g.maxDeliveries wait F (.left (fun c' => decide (c' = c))))
    ∧ Tight (g.releaseConsumer c order) ∧ Same g (g.releaseConsumer c order)
    ∧ (∀ s p, mget (g.releaseConsumer c order).pending s = some p → p.consumer ≠ c ∧ mget g.pending s = some p) := by
  obtain ⟨a1, a2, a3, a4, a5⟩ :=
    hc.takeBackAll (iterOrder order (mkeys (g.pending.filter (fun e : Nat × Pend => decide (e.2.consumer = c)))))
  rw [releaseAll_held hc] at a1
  obtain ⟨b1, b2⟩ := a1.advance
  refine ⟨?_, b2, a2.trans (advance_same _), fun s p h => ?_⟩
  · have : (fates g.maxDeliveries wait F (.left (fun c' => decide (c' = c)))) = fun s => match F s with
        | .held c' t k => if decide (c' = c) then (Fate.held c' t k).release g.maxDeliveries else .held c' t k
        | f => f := by
      funext s
      simp only [fates]
      cases F s <;> rfl
    rw [this]
    exact b1
  · unfold Group.releaseConsumer at h
    rw [advance_pending] at h
    have := a5 s p h
    refine ⟨fun e => this.1 ?_, this.2⟩
    rw [iterOrder_mem, mem_mkeys_filter hc.wf]
    exact ⟨p, this.2, by simp [e]⟩

theorem checkRedelivery_spec {head : Nat} {g : Group} {F : Nat → Fate} (hi : GInv head g F) (now : Nat)
    (order : List Nat) :
    GInv head (g.checkRedelivery now order).1 (fates g.maxDeliveries g.ackWait F (.tick now))
    ∧ Same g (g.checkRedelivery now order).1 := by
  have hF : (fates g.maxDeliveries g.ackWait F (.tick now)) = fun s => match F s with
        | .held c' t k => if decide (now - t > g.ackWait) then (Fate.held c' t k).release g.maxDeliveries else .held c' t k
        | f => f := by
      funext s
      simp only [fates]
      cases F s <;> simp [Fate.step]
  have hra := releaseAll_held hi.core order (fun e => decide (now - e.2.at_ > g.ackWait))
  simp only at hra
  unfold Group.checkRedelivery
  split
  · next he =>
    refine ⟨?_, Same.refl g⟩
    have : releaseAll g.maxDeliveries F (iterOrder order (g.expired now)) = F := by
      funext s
      simp only [releaseAll, iterOrder_mem]
      rw [List.isEmpty_iff.1 he]
      simp
    rw [hF]
    unfold Group.expired at this
    rw [this] at hra
    rw [← hra]
    exact hi
  · obtain ⟨a1, a2, a3, a4, a5⟩ := hi.core.takeBackAll (iterOrder order (g.expired now))
    obtain ⟨b1, b2⟩ := a1.advance
    refine ⟨⟨?_, b2, ?_⟩, a2.trans (advance_same _)⟩
    · rw [hF]
      unfold Group.expired at b1 ⊢
      rw [hra] at b1
      exact b1
    · have : Members ((iterOrder order (g.expired now)).foldl Group.takeBack g) := by
        intro s p hp
        rw [a2.members]
        exact hi.mem s p (a5 s p hp).2
      exact this.advance

theorem removeMember_spec {head : Nat} {g : Group} {F : Nat → Fate} (hi : GInv head g F) (c : Str) (order : List Nat)
    (wait : Nat) {conn : Str} (hc : mget g.members c = some conn) :
    (g.removeMember c order).2 = some conn
    ∧ GInv head (g.removeMember c order).1 (fates g.maxDeliveries wait F (.left (fun c' => decide (c' = c))))
    ∧ (g.removeMember c order).1.members = mdel g.members c
    ∧ (g.removeMember c order).1.gen = g.gen ∧ (g.removeMember c order).1.maxPending = g.maxPending
    ∧ (g.removeMember c order).1.ackWait = g.ackWait ∧ (g.removeMember c order).1.maxDeliveries = g.maxDeliveries := by
  unfold Group.removeMember
  rw [hc]
  simp only
  have hcore : GCore head { g with members := mdel g.members c } F := { hi.core with }
  obtain ⟨a1, a2, a3, a4⟩ := releaseConsumer_spec hcore c order wait
  refine ⟨(by first | rfl | trivial), ⟨{ a1 with }, a2, ?_⟩, a3.members, a3.gen, a3.maxPending, a3.ackWait, a3.maxDeliveries⟩
  intro s p hp
  have := a4 s p hp
  have hm := hi.mem s p this.2
  show mhas (Group.releaseConsumer { g with members := mdel g.members c } c order).members p.consumer = true
  rw [a3.members]
  simp only [mhas, mget_mdel, if_neg this.1]
  exact hm

/-! ### Acknowledgements, seeks, joins -/

theorem ack_ok {g : Group} {c : Str} {gen s : Nat} (h : (g.ack c gen s).2 = none) :
    g.gen = gen ∧ mhas g.members c = true ∧ ∃ p, mget g.pending s = some p ∧ p.consumer = c
    ∧ (g.ack c gen s).1 = advance { g with pending := mdel g.pending s, attempts := mdel g.attempts s,
                                           parked := sremove s g.parked } := by
  unfold Group.ack at h ⊢
  cases hi : g.inactive c gen with
  | some e => rw [hi] at h; cases h
  | none =>
    rw [hi] at h
    simp only at h ⊢
    unfold Group.inactive at hi
    split at hi
    · cases hi
    · next h1 =>
      split at hi
      · cases hi
      · next h2 =>
        cases hp : mget g.pending s with
        | none => rw [hp] at h; cases h
        | some p =>
          rw [hp] at h
          simp only at h ⊢
          by_cases hcc : p.consumer = c
          · rw [if_pos hcc]
            simp only [ne_eq, Decidable.not_not] at h1
            simp only [Bool.not_eq_true', Bool.not_eq_false] at h2
            exact ⟨h1.symm, h2, p, rfl, hcc, rfl⟩
          · rw [if_neg hcc] at h; cases h

theorem ack_err {g : Group} {c : Str} {gen s : Nat} {e : GErr} (h : (g.ack c gen s).2 = some e) : (g.ack c gen s).1 = g := by
  unfold Group.ack at h ⊢
  cases hi : g.inactive c gen with
  | some e => rfl
  | none =>
    rw [hi] at h
    simp only at h ⊢
    cases hp : mget g.pending s with
    | none => rfl
    | some p =>
      rw [hp] at h
      simp only at h ⊢
      by_cases hcc : p.consumer = c
      · rw [if_pos hcc] at h; cases h
      · rw [if_neg hcc]

theorem ack_spec {head : Nat} {g : Group} {F : Nat → Fate} (hi : GInv head g F) {c : Str} {gen s : Nat} (wait : Nat)
    (h : (g.ack c gen s).2 = none) :
    GInv head (g.ack c gen s).1 (fates g.maxDeliveries wait F (.acked s)) ∧ Same g (g.ack c gen s).1 := by
  obtain ⟨_, _, p, hp, _, he⟩ := ack_ok h
  rw [he]
  have hc := hi.core
  have hF := (hc.held s p.consumer p.at_ p.count).2 hp
  have hns : ¬ g.next ≤ s := fun h => by rw [(hc.fresh s).2 h] at hF; cases hF
  have hsr : s ∉ g.redeliver := by
    intro hm
    obtain ⟨k, hk⟩ := hc.redAtt s hm
    have := (hc.waiting s k).2 ⟨hm, hk⟩
    rw [hF] at this; cases this
  have hcore : GCore head { g with pending := mdel g.pending s, attempts := mdel g.attempts s,
                                   parked := sremove s g.parked } (fates g.maxDeliveries wait F (.acked s)) := by
    have hFs : ∀ s', fates g.maxDeliveries wait F (.acked s) s' = if s' = s then .acked else F s' := by
      intro s'
      simp only [fates]
      by_cases h : s' = s
      · subst h; rw [if_pos rfl]; cases F s' <;> simp [Fate.step]
      · rw [if_neg h]
        have : ¬ s = s' := fun e => h e.symm
        cases F s' <;> simp [Fate.step, this]
    refine
      { wf := hc.wf.mdel s, nodup := hc.nodup, held := ?_, waiting := ?_, fresh := ?_, heldCount := ?_,
        waitCount := ?_, redAtt := ?_, attFresh := ?_, floorLt := hc.floorLt, floorOk := ?_,
        headFloor := hc.headFloor, headNext := hc.headNext, belowPend := ?_, belowRed := hc.belowRed,
        belowPark := ?_, belowAtt := ?_, bound := ?_, maxPos := hc.maxPos }
    · intro s' c t k
      rw [hFs]
      simp only [mget_mdel]
      by_cases h : s' = s
      · rw [if_pos h, if_pos h]; constructor <;> intro x <;> cases x
      · rw [if_neg h, if_neg h]; exact hc.held s' c t k
    · intro s' k
      rw [hFs]
      simp only [mget_mdel]
      by_cases h : s' = s
      · rw [if_pos h, if_pos h]; constructor
        · intro x; cases x
        · intro x; cases x.2
      · rw [if_neg h, if_neg h]; exact hc.waiting s' k
    · intro s'
      rw [hFs]
      by_cases h : s' = s
      · rw [if_pos h]; subst h; constructor
        · intro x; cases x
        · intro x; exact absurd x hns
      · rw [if_neg h]; exact hc.fresh s'
    · intro s' c t k hh
      rw [hFs] at hh
      by_cases h : s' = s
      · rw [if_pos h] at hh; cases hh
      · rw [if_neg h] at hh
        simp only [mget_mdel, if_neg h]
        exact hc.heldCount s' c t k hh
    · intro s' k hh
      rw [hFs] at hh
      by_cases h : s' = s
      · rw [if_pos h] at hh; cases hh
      · rw [if_neg h] at hh; exact hc.waitCount s' k hh
    · intro s' hh
      have h : s' ≠ s := fun e => hsr (e ▸ hh)
      simp only [mget_mdel, if_neg h]
      exact hc.redAtt s' hh
    · intro s' hh
      simp only [mget_mdel]
      split
      · rfl
      · exact hc.attFresh s' hh
    · intro s' hh
      simp only [mget_mdel]
      refine ⟨?_, (hc.floorOk s' hh).2⟩
      split
      · rfl
      · exact (hc.floorOk s' hh).1
    · intro e he
      exact hc.belowPend e (List.mem_filter.1 he).1
    · intro s' hh
      exact hc.belowPark s' (List.mem_filter.1 hh).1
    · intro e he
      exact hc.belowAtt e (List.mem_filter.1 he).1
    · exact Nat.le_trans (List.length_filter_le _ _) hc.bound
  obtain ⟨b1, b2⟩ := hcore.advance
  refine ⟨⟨b1, b2, ?_⟩, advance_same _ |> fun h => ⟨h.1, h.2, h.3, h.4, h.5, h.6, h.7⟩⟩
  have : Members { g with pending := mdel g.pending s, attempts := mdel g.attempts s, parked := sremove s g.parked } := by
    intro s' p' hp'
    simp only [mget_mdel] at hp'
    split at hp'
    · cases hp'
    · exact hi.mem s' p' hp'
  exact this.advance

/-- A group without any deliveries that starts at `first`. -/
theorem GInv.start {head first : Nat} {g : Group} (h1 : g.next = first) (h2 : g.floor + 1 = first) (h3 : max head 1 ≤ first)
    (hp : g.pending = []) (hr : g.redeliver = []) (hk : g.parked = []) (ha : g.attempts = [])
    (hm : 1 ≤ g.maxDeliveries) (F : Nat → Fate) (hF : ∀ s, F s = if first ≤ s then .fresh else .skipped) :
    GInv head g F := by
  refine ⟨?_, .inl (by omega), fun s p h => by rw [hp] at h; cases h⟩
  refine
    { wf := by rw [hp]; exact MWF.nil, nodup := by rw [hr]; simp, held := ?_, waiting := ?_, fresh := ?_,
      heldCount := ?_, waitCount := ?_, redAtt := by rw [hr]; simp, attFresh := by rw [ha]; simp, floorLt := by omega,
      floorOk := by rw [hp, hr]; simp, headFloor := by omega, headNext := by omega, belowPend := by rw [hp]; simp,
      belowRed := by rw [hr]; simp, belowPark := by rw [hk]; simp, belowAtt := by rw [ha]; simp,
      bound := by rw [hp]; simp, maxPos := hm }
  · intro s c t k
    rw [hF, hp]
    constructor
    · intro h; split at h <;> cases h
    · intro h; cases h
  · intro s k
    rw [hF, hr]
    constructor
    · intro h; split at h <;> cases h
    · intro h; cases h.1
  · intro s
    rw [hF, h1]
    split
    · next h => simp [h]
    · next h => simp [h]
  · intro s c t k h
    rw [hF] at h
    split at h <;> cases h
  · intro s k h
    rw [hF] at h
    split at h <;> cases h

theorem fates_restarted (max wait : Nat) (F : Nat → Fate) (first s : Nat) :
    fates max wait F (.restarted first) s = if first ≤ s then .fresh else .skipped := by
  simp only [fates]
  cases F s <;> rfl

theorem fates_removed (max wait : Nat) (F : Nat → Fate) (h : Nat) :
    fates max wait F (.removed h) = fun s => if s < h then .removed else F s := by
  funext s
  simp only [fates]
  cases F s <;> rfl

theorem new_inv (head mp aw md : Nat) (hm : 1 ≤ md) (wait : Nat) (F : Nat → Fate) :
    GInv head (Group.new head mp aw md) (fates md wait F (.restarted (max head 1))) :=
  GInv.start (first := max head 1) rfl (by simp only [Group.new]; omega) (Nat.le_refl _) rfl rfl rfl rfl hm _
    (fates_restarted md wait F _)

theorem seekBeginning_inv (g : Group) (head : Nat) (hm : 1 ≤ g.maxDeliveries) (wait : Nat) (F : Nat → Fate) :
    GInv head (g.seekBeginning head) (fates g.maxDeliveries wait F (.restarted (max head 1))) :=
  GInv.start (g := g.seekBeginning head) (first := max head 1) rfl
    (by simp only [seekBeginning, resetRuntime, invalidate]; omega) (Nat.le_refl _) rfl rfl rfl rfl hm _ (fates_restarted _ wait F _)

theorem seekEnd_inv (g : Group) (head last : Nat) (hl : max head 1 ≤ last + 1) (hm : 1 ≤ g.maxDeliveries) (wait : Nat)
    (F : Nat → Fate) :
    GInv head (g.seekEnd last) (fates g.maxDeliveries wait F (.restarted (last + 1))) :=
  GInv.start (g := g.seekEnd last) (first := last + 1) rfl rfl hl rfl rfl rfl rfl hm _ (fates_restarted _ wait F _)

theorem GInv.addMember {head : Nat} {g : Group} {F : Nat → Fate} (hi : GInv head g F) (c conn : Str) :
    GInv head (g.addMember c conn) F := by
  refine ⟨{ hi.core with }, hi.tight, fun s p h => ?_⟩
  have := hi.mem s p h
  simp only [Group.addMember, mhas, mget_mset]
  split
  · rfl
  · exact this

theorem GInv.cold {head : Nat} {g : Group} {F : Nat → Fate} (hi : GInv head g F) (b : Bool) :
    GInv head { g with fetchingCold := b } F := ⟨{ hi.core with }, hi.tight, hi.mem⟩

end Verif.Stream
