import Verif.Proofs.PubSub

/-!
# Histories that differ in one operation
-/

namespace Verif.PubSub

/-- The operation says nothing about this client. -/
def Op.about (c : Cid) : Op → Bool
  | .connect c' => decide (c' = c)
  | .drop c' => decide (c' = c)
  | .disconnect c' => decide (c' = c)
  | .subscribe c' _ _ _ => decide (c' = c)
  | .unsubscribe c' _ => decide (c' = c)
  | _ => false

theorem connectedRev_skip {c : Cid} {o : Op} (ho : o.about c = false) (g h : List Op) :
    connectedRev c (g ++ o :: h) = connectedRev c (g ++ h) := by
  induction g with
  | nil =>
    cases o <;> simp only [Op.about, decide_eq_false_iff_not] at ho <;> simp [connectedRev, ho]
  | cons x g ih => cases x <;> simp [connectedRev, ih]

theorem connectedRev_unsub {c c' : Cid} {p : Str} (g h : List Op) :
    connectedRev c (g ++ .unsubscribe c' p :: h) = connectedRev c (g ++ h) := by
  induction g with
  | nil => rfl
  | cons x g ih => cases x <;> simp [connectedRev, ih]

theorem subscribedRev_skip {c : Cid} {p : Str} {o : Op} (ho : o.about c = false) (g h : List Op) :
    subscribedRev c p (g ++ o :: h) = subscribedRev c p (g ++ h) := by
  induction g with
  | nil =>
    cases o <;> simp only [Op.about, decide_eq_false_iff_not] at ho <;> simp [subscribedRev, ho]
  | cons x g ih => cases x <;> simp [subscribedRev, ih, connectedRev_skip ho]

theorem subscribedRev_unsub {c c' : Cid} {p q : Str} (hne : ¬ (c' = c ∧ p = q)) (g h : List Op) :
    subscribedRev c q (g ++ .unsubscribe c' p :: h) = subscribedRev c q (g ++ h) := by
  induction g with
  | nil =>
    simp only [List.nil_append, subscribedRev]
    have : (decide (c' = c) && decide (p = q)) = false := by
      by_cases h1 : c' = c
      · have : ¬ p = q := fun h2 => hne ⟨h1, h2⟩
        simp [this]
      · simp [h1]
    simp [this]
  | cons x g ih => cases x <;> simp [subscribedRev, ih, connectedRev_unsub]

theorem subscribedRev_gone {c : Cid} {p : Str} {g h : List Op} (hg : ∀ o n, .subscribe c p o n ∉ g) :
    subscribedRev c p (g ++ .unsubscribe c p :: h) = false := by
  induction g with
  | nil => simp [subscribedRev]
  | cons x g ih =>
    have ih := ih (fun o n hm => hg o n (List.mem_cons_of_mem _ hm))
    cases x with
    | subscribe c' p' o n =>
      simp only [List.cons_append, subscribedRev, ih, Bool.or_false]
      by_cases h1 : c' = c
      · by_cases h2 : p' = p
        · subst h1; subst h2; exact absurd (List.mem_cons_self ..) (hg o n)
        · simp [h2]
      · simp [h1]
    | _ => simp [subscribedRev, ih]

theorem connectedRev_gone {c : Cid} {g h : List Op} (hn : (connects (g ++ .disconnect c :: h)).Nodup)
    (hc : c ∈ connects h) : connectedRev c (g ++ .disconnect c :: h) = false := by
  have hg : c ∉ connects g := by
    rw [connects_append] at hn
    intro hm
    exact (List.nodup_append.1 hn).2.2 c hm c hc rfl
  clear hn
  induction g with
  | nil => simp [connectedRev]
  | cons x g ih =>
    cases x with
    | connect c' =>
      simp only [connects, List.mem_cons, not_or] at hg
      simp [connectedRev, ih hg.2, Ne.symm hg.1]
    | _ => simp only [List.cons_append, connectedRev, ih hg, Bool.and_false]

/-- The retained values depend only on the retained publishes. -/
def Op.keeps : Op → Bool
  | .publish _ _ keep _ _ _ => keep
  | _ => false

theorem keptRev_skip {dflt : Nat} {base : Str → Option Kept} {topic : Str} {o : Op} (ho : o.keeps = false)
    (g h : List Op) : keptRev dflt base topic (g ++ o :: h) = keptRev dflt base topic (g ++ h) := by
  induction g with
  | nil =>
    cases o with
    | publish a b keep d e f => simp only [Op.keeps] at ho; subst ho; rfl
    | _ => rfl
  | cons x g ih =>
    cases x with
    | publish a b keep d e f => cases keep <;> simp [keptRev, ih]
    | _ => exact ih

theorem keptRev_filter {dflt : Nat} {base : Str → Option Kept} {topic : Str} {q : Op → Bool}
    (hq : ∀ o, o.keeps = true → q o = true) (h : List Op) :
    keptRev dflt base topic (h.filter q) = keptRev dflt base topic h := by
  induction h with
  | nil => rfl
  | cons o h ih =>
    rw [List.filter_cons]
    cases o with
    | publish a b keep d e f =>
      cases keep with
      | true => rw [if_pos (hq _ rfl)]; simp only [keptRev, ih]
      | false => split <;> exact ih
    | _ => split <;> exact ih

/-- A retained publish of another topic does not matter. -/
theorem keptRev_other {dflt : Nat} {base : Str → Option Kept} {topic topic' : Str} {data : Bytes}
    {keep : Bool} {ttl : Option Nat} {now unixNow : Nat} (hne : topic' ≠ topic) (g h : List Op) :
    keptRev dflt base topic (g ++ .publish topic' data keep ttl now unixNow :: h) = keptRev dflt base topic (g ++ h) := by
  induction g with
  | nil => cases keep <;> simp [keptRev, hne]
  | cons x g ih =>
    cases x with
    | publish a b keep d e f => cases keep <;> simp [keptRev, ih]
    | _ => exact ih

/-- After the last retained publish of the topic nothing changes. -/
theorem keptRev_last {dflt : Nat} {base : Str → Option Kept} {topic : Str} {g h : List Op}
    (hg : ∀ d t n u, .publish topic d true t n u ∉ g) :
    keptRev dflt base topic (g ++ h) = keptRev dflt base topic h := by
  induction g with
  | nil => rfl
  | cons x g ih =>
    have ih := ih (fun d t n u hm => hg d t n u (List.mem_cons_of_mem _ hm))
    cases x with
    | publish a b keep d e f =>
      cases keep with
      | false => exact ih
      | true =>
        have : a ≠ topic := by rintro rfl; exact hg _ _ _ _ (List.mem_cons_self ..)
        simp [keptRev, this, ih]
    | _ => exact ih

theorem connects_filter {q : Op → Bool} (h : List Op) : (connects (h.filter q)).Sublist (connects h) := by
  induction h with
  | nil => exact List.Sublist.refl _
  | cons o h ih =>
    rw [List.filter_cons]
    split
    · cases o <;> simp only [connects] <;> first | exact ih.cons_cons _ | exact ih
    · cases o <;> simp only [connects] <;> first | exact ih.cons _ | exact ih

theorem times_filter {q : Op → Bool} (h : List Op) : (times (h.filter q)).Sublist (times h) := by
  induction h with
  | nil => exact List.Sublist.refl _
  | cons o h ih =>
    rw [List.filter_cons]
    split
    · cases o <;> simp only [times] <;> first | exact ih.cons_cons _ | exact ih
    · cases o <;> simp only [times] <;> first | exact ih.cons _ | exact ih

theorem connectedRev_filter {c : Cid} {q : Op → Bool} (hq : ∀ o, o.about c = true → q o = true) (h : List Op) :
    connectedRev c (h.filter q) = connectedRev c h := by
  induction h with
  | nil => rfl
  | cons o h ih =>
    rw [List.filter_cons]
    split
    · cases o <;> simp [connectedRev, ih]
    · next hn =>
      rw [ih]
      have : o.about c = false := by
        cases ha : o.about c with
        | false => rfl
        | true => exact absurd (hq o ha) hn
      have := connectedRev_skip this [] h
      exact this.symm

theorem Valid.remove {start : Nat} {g : List Op} {o : Op} {h : List Op} (hv : Valid start (h ++ o :: g)) :
    Valid start (h ++ g) := by
  constructor
  · have := hv.fresh
    rw [connects_append] at this ⊢
    refine this.sublist (List.Sublist.append_left ?_ _)
    cases o <;> simp [connects]
  · have := hv.clock
    rw [times_append, ← List.cons_append] at this ⊢
    refine this.sublist (List.Sublist.append_left ?_ _)
    cases o <;> simp [times]

end Verif.PubSub
