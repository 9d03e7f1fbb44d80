import Verif.Base.AMap

/-!
# Ordered index of linked sets

`BTreeMap<u64, LinkedHashSet<Uuid>>` as a list of (key, bucket) pairs in increasing key order; a
`hashlink::LinkedHashSet` is a list without repetitions whose `insert` puts the element at the back.
-/

namespace Verif

/-- Ordered index: keys in increasing order, each with its bucket of ids. -/
abbrev Index := List (Nat × List Nat)

/-- `LinkedHashSet::insert`: at the back (moved there if it was present). -/
def lhsInsert (q : List Nat) (id : Nat) : List Nat := q.filter (· ≠ id) ++ [id]

/-- `BTreeMap::entry(k).or_default()` followed by an update of the bucket. -/
def bentry (f : List Nat → List Nat) : Index → Nat → Index
  | [], k => [(k, f [])]
  | (k', q) :: t, k =>
    if k < k' then (k, f []) :: (k', q) :: t
    else if k = k' then (k', f q) :: t
    else (k', q) :: bentry f t k

/-- All ids in key order. -/
def flat (ix : Index) : List Nat := ix.flatMap (·.2)

/-- Strictly increasing keys. -/
def BSorted (ix : Index) : Prop := ix.Pairwise (fun a b => a.1 < b.1)

/-- Every id in the bucket of key `k` has key `k` under `key`. -/
def BKeyed (key : Nat → Nat) (ix : Index) : Prop := ∀ e ∈ ix, ∀ id ∈ e.2, key id = e.1

/-- No empty buckets. -/
def BFull (ix : Index) : Prop := ∀ e ∈ ix, e.2 ≠ []

@[simp] theorem flat_nil : flat [] = [] := rfl
@[simp] theorem flat_cons (e : Nat × List Nat) (t : Index) : flat (e :: t) = e.2 ++ flat t := rfl
theorem flat_append (a b : Index) : flat (a ++ b) = flat a ++ flat b := by simp [flat]

theorem mem_flat {ix : Index} {id : Nat} : id ∈ flat ix ↔ ∃ e ∈ ix, id ∈ e.2 := by
  simp [flat, List.mem_flatMap]

theorem BSorted.tail {e : Nat × List Nat} {t : Index} (h : BSorted (e :: t)) : BSorted t :=
  (List.pairwise_cons.1 h).2

theorem BSorted.head {e : Nat × List Nat} {t : Index} (h : BSorted (e :: t)) : ∀ x ∈ t, e.1 < x.1 :=
  (List.pairwise_cons.1 h).1

theorem BSorted.mwf {ix : Index} (h : BSorted ix) : MWF ix := by
  unfold MWF
  rw [List.nodup_iff_pairwise_ne, List.pairwise_map]
  exact h.imp (fun hab => Nat.ne_of_lt hab)

theorem mem_bentry {f : List Nat → List Nat} {ix : Index} {k : Nat} {e : Nat × List Nat}
    (h : e ∈ bentry f ix k) : e ∈ ix ∨ e.1 = k := by
  induction ix with
  | nil => simp only [bentry, List.mem_singleton] at h; right; rw [h]
  | cons x t ih =>
    obtain ⟨k', q⟩ := x
    simp only [bentry] at h
    split at h
    · simp only [List.mem_cons] at h ⊢
      rcases h with h | h | h
      · right; rw [h]
      · left; left; exact h
      · left; right; exact h
    · split at h
      · simp only [List.mem_cons] at h ⊢
        rcases h with h | h
        · right; rw [h]; simp_all
        · left; right; exact h
      · simp only [List.mem_cons] at h ⊢
        rcases h with h | h
        · left; left; exact h
        · rcases ih h with h | h
          · left; right; exact h
          · right; exact h

theorem BSorted.bentry {ix : Index} (h : BSorted ix) (f : List Nat → List Nat) (k : Nat) :
    BSorted (Verif.bentry f ix k) := by
  induction ix with
  | nil => simp [Verif.bentry, BSorted]
  | cons x t ih =>
    obtain ⟨k', q⟩ := x
    simp only [Verif.bentry]
    split
    · next hk =>
      refine List.pairwise_cons.2 ⟨?_, h⟩
      intro y hy
      rcases List.mem_cons.1 hy with rfl | hy
      · exact hk
      · exact Nat.lt_trans hk (h.head y hy)
    · split
      · next hk => exact List.pairwise_cons.2 ⟨h.head, h.tail⟩
      · next h1 h2 =>
        refine List.pairwise_cons.2 ⟨?_, ih h.tail⟩
        intro y hy
        rcases mem_bentry hy with hy | hy
        · exact h.head y hy
        · simp only [hy]; omega

theorem BKeyed.filter_gt {key : Nat → Nat} {t : Index} {k : Nat} (hk : BKeyed key t)
    (hs : ∀ x ∈ t, k < x.1) :
    (flat t).filter (fun i => key i ≤ k) = [] ∧ (flat t).filter (fun i => decide (k < key i)) = flat t := by
  have h1 : ∀ i ∈ flat t, k < key i := by
    intro i hi
    obtain ⟨e, he, hie⟩ := mem_flat.1 hi
    rw [hk e he i hie]; exact hs e he
  constructor
  · rw [List.filter_eq_nil_iff]
    intro i hi; have := h1 i hi; simp; omega
  · rw [List.filter_eq_self]
    intro i hi; simpa using h1 i hi

/-- Inserting into the index puts the id behind everything with the same or a smaller key. -/
theorem flat_bentry {key : Nat → Nat} {ix : Index} (hs : BSorted ix) (hk : BKeyed key ix) {k id : Nat}
    (hid : id ∉ flat ix) :
    flat (bentry (fun q => lhsInsert q id) ix k) =
      (flat ix).filter (fun i => key i ≤ k) ++ id :: (flat ix).filter (fun i => decide (k < key i)) := by
  induction ix with
  | nil => simp [bentry, lhsInsert]
  | cons x t ih =>
    obtain ⟨k', q⟩ := x
    have hkt : BKeyed key t := fun e he => hk e (List.mem_cons_of_mem _ he)
    have hkq : ∀ i ∈ q, key i = k' := hk (k', q) (List.mem_cons_self ..)
    simp only [flat_cons, List.mem_append, not_or] at hid
    simp only [bentry]
    split
    · next hlt =>
      have h0 := hk.filter_gt (k := k) (by
        intro y hy
        rcases List.mem_cons.1 hy with rfl | hy
        · exact hlt
        · exact Nat.lt_trans hlt (hs.head y hy))
      rw [h0.1, h0.2]
      simp [lhsInsert]
    · next hnlt =>
      split
      · next heq =>
        subst heq
        have h0 := hkt.filter_gt (k := k) (fun y hy => hs.head y hy)
        have hq1 : q.filter (fun i => decide (key i ≤ k)) = q := by
          rw [List.filter_eq_self]; intro i hi; simp [hkq i hi]
        have hq2 : q.filter (fun i => decide (k < key i)) = [] := by
          rw [List.filter_eq_nil_iff]; intro i hi; simp [hkq i hi]
        have hqn : q.filter (fun x => decide (x ≠ id)) = q := by
          rw [List.filter_eq_self]; intro i hi
          have : i ≠ id := fun h => hid.1 (h ▸ hi)
          simpa using this
        simp only [flat_cons, List.filter_append, h0.1, h0.2, hq1, hq2, lhsInsert, hqn, List.append_nil, List.nil_append, List.append_assoc, List.cons_append]
      · next hne =>
        have hlt : k' < k := by omega
        have hq1 : q.filter (fun i => decide (key i ≤ k)) = q := by
          rw [List.filter_eq_self]; intro i hi; simp [hkq i hi]; omega
        have hq2 : q.filter (fun i => decide (k < key i)) = [] := by
          rw [List.filter_eq_nil_iff]; intro i hi; simp [hkq i hi]; omega
        simp only [flat_cons, ih hs.tail hkt hid.2, List.filter_append, hq1, hq2, List.nil_append, List.append_assoc]

/-- Remove an id from the bucket of `k`, dropping the bucket when it becomes empty
(`get_mut(k)`, `queue.remove(id)`, `if queue.is_empty() { map.remove(k) }`). -/
def bremove (ix : Index) (k id : Nat) : Index :=
  match mget ix k with
  | none => ix
  | some q =>
    let q' := q.filter (· ≠ id)
    if q'.isEmpty then mdel ix k else mupd ix k (fun _ => q')

theorem bremove_eq {ix : Index} (hs : BSorted ix) (k id : Nat) :
    bremove ix k id =
      (ix.map (fun e => if e.1 = k then (e.1, e.2.filter (· ≠ id)) else e)).filter
        (fun e => e.1 ≠ k ∨ e.2 ≠ []) := by
  unfold bremove
  cases hg : mget ix k with
  | none =>
    have hnk : ∀ e ∈ ix, e.1 ≠ k := by
      intro e he hek
      have := mget_eq_none.1 hg
      exact this (List.mem_map.2 ⟨e, he, hek⟩)
    simp only
    symm
    rw [List.filter_eq_self.2]
    · conv => rhs; rw [← List.map_id ix]
      apply List.map_congr_left
      intro e he; simp [hnk e he]
    · intro e he
      obtain ⟨x, hx, rfl⟩ := List.mem_map.1 he
      simp [hnk x hx]
  | some q =>
    simp only
    have hmem := mget_some_mem hg
    have huniq : ∀ e ∈ ix, e.1 = k → e.2 = q := by
      intro e he hek
      have : mget ix e.1 = some e.2 := (hs.mwf.mem_iff).1 (by cases e; exact he)
      rw [hek, hg] at this; exact (Option.some.inj this).symm
    split
    · next hemp =>
      have hemp' : q.filter (· ≠ id) = [] := by simpa using hemp
      unfold mdel
      rw [List.filter_map]
      have : List.filter ((fun e : Nat × List Nat => decide (e.1 ≠ k ∨ e.2 ≠ [])) ∘ fun e => if e.1 = k then (e.1, e.2.filter (· ≠ id)) else e) ix
          = ix.filter (fun e => decide (e.1 ≠ k)) := by
        apply List.filter_congr
        intro e he
        by_cases hek : e.1 = k
        · have := huniq e he hek
          simp only [Function.comp, hek, if_true, this, hemp']
          simp
        · simp [Function.comp, hek]
      rw [this]
      conv => lhs; rw [← List.map_id (ix.filter _)]
      apply List.map_congr_left
      intro e he
      have := (List.mem_filter.1 he).2
      simp at this; simp [this]
    · next hne =>
      have hne' : q.filter (· ≠ id) ≠ [] := by simpa using hne
      unfold mupd
      symm
      rw [List.filter_eq_self.2]
      · symm
        apply List.map_congr_left
        intro e he
        by_cases hek : e.1 = k
        · simp only [hek, if_true, huniq e he hek]
        · simp [hek]
      · intro e he
        obtain ⟨x, hx, rfl⟩ := List.mem_map.1 he
        by_cases hek : x.1 = k
        · simp only [hek, if_true, huniq x hx hek]; simp only [ne_eq, not_true_eq_false, false_or]; exact decide_eq_true hne'
        · simp [hek]

theorem BSorted.bremove {ix : Index} (hs : BSorted ix) (k id : Nat) : BSorted (Verif.bremove ix k id) := by
  rw [bremove_eq hs]
  apply List.Pairwise.filter
  rw [List.pairwise_map]
  refine hs.imp ?_
  intro a b hab
  split <;> split <;> exact hab

theorem mem_bremove {ix : Index} (hs : BSorted ix) {k id : Nat} {e : Nat × List Nat}
    (h : e ∈ bremove ix k id) : ∃ x ∈ ix, x.1 = e.1 ∧ ∀ i ∈ e.2, i ∈ x.2 := by
  rw [bremove_eq hs] at h
  obtain ⟨x, hx, rfl⟩ := List.mem_map.1 (List.mem_filter.1 h).1
  refine ⟨x, hx, ?_⟩
  split
  · exact ⟨rfl, fun i hi => (List.mem_filter.1 hi).1⟩
  · exact ⟨rfl, fun i hi => hi⟩

theorem BFull.bremove {ix : Index} (hs : BSorted ix) (hf : BFull ix) (k id : Nat) : BFull (Verif.bremove ix k id) := by
  intro e he
  rw [bremove_eq hs] at he
  have h2 := (List.mem_filter.1 he).2
  obtain ⟨x, hx, rfl⟩ := List.mem_map.1 (List.mem_filter.1 he).1
  by_cases hk : x.1 = k
  · simp only [hk, if_true] at h2 ⊢
    simpa using h2
  · simp only [hk, if_false] at h2 ⊢
    exact hf x hx

theorem BFull.bentry {ix : Index} (hf : BFull ix) (k id : Nat) :
    BFull (Verif.bentry (fun q => lhsInsert q id) ix k) := by
  induction ix with
  | nil => intro e he; simp [Verif.bentry, lhsInsert] at he; simp [he]
  | cons x t ih =>
    obtain ⟨k', q⟩ := x
    have hft : BFull t := fun e he => hf e (List.mem_cons_of_mem _ he)
    intro e he
    simp only [Verif.bentry] at he
    split at he
    · rcases List.mem_cons.1 he with rfl | he
      · simp [lhsInsert]
      · exact hf e he
    · split at he
      · rcases List.mem_cons.1 he with rfl | he
        · simp [lhsInsert]
        · exact hft e he
      · rcases List.mem_cons.1 he with rfl | he
        · exact hf _ (List.mem_cons_self ..)
        · exact ih hft e he

/-- Removing an id from the index removes it from the flattened order and nothing else. -/
theorem flat_bremove {key : Nat → Nat} {ix : Index} (hs : BSorted ix) (hk : BKeyed key ix) {k id : Nat}
    (hid : key id = k) : flat (bremove ix k id) = (flat ix).filter (· ≠ id) := by
  rw [bremove_eq hs]
  have key' : ∀ (t : Index), BKeyed key t →
      flat ((t.map (fun e => if e.1 = k then (e.1, e.2.filter (· ≠ id)) else e)).filter
        (fun e => decide (e.1 ≠ k ∨ e.2 ≠ []))) = (flat t).filter (· ≠ id) := by
    intro t
    induction t with
    | nil => intro _; rfl
    | cons e t ih =>
      intro hk
      have hkt : BKeyed key t := fun e he => hk e (List.mem_cons_of_mem _ he)
      have hke := hk e (List.mem_cons_self ..)
      simp only [List.map_cons, List.filter_cons, flat_cons, List.filter_append]
      by_cases hek : e.1 = k
      · simp only [hek, if_true, ne_eq, not_true_eq_false, false_or]
        split
        · simp only [flat_cons]; rw [ih hkt]
        · next h => simp at h
                    rw [ih hkt]
                    have : e.2.filter (fun x => !decide (x = id)) = [] := by
                      rw [List.filter_eq_nil_iff]; intro a ha; simpa using h a ha
                    simp [this]
      · have hne : e.2.filter (· ≠ id) = e.2 := by
          rw [List.filter_eq_self]
          intro i hi
          have := hke i hi
          have : i ≠ id := by intro h; subst h; exact hek (this.symm.trans hid)
          simpa using this
        simp only [hek, if_false, ne_eq, not_false_iff, true_or, decide_true, if_true, flat_cons]
        rw [ih hkt]
        simp only [ne_eq] at hne
        rw [hne]
  exact key' ix hk

theorem BKeyed.bremove {key : Nat → Nat} {ix : Index} (hs : BSorted ix) (hk : BKeyed key ix) (k id : Nat) :
    BKeyed key (Verif.bremove ix k id) := by
  intro e he i hi
  obtain ⟨x, hx, h1, h2⟩ := mem_bremove hs he
  rw [← h1]; exact hk x hx i (h2 i hi)

theorem BKeyed.bentry {key : Nat → Nat} {ix : Index} (hk : BKeyed key ix) {k id : Nat} (hid : key id = k) :
    BKeyed key (Verif.bentry (fun q => lhsInsert q id) ix k) := by
  induction ix with
  | nil =>
    intro e he i hi
    simp only [Verif.bentry, List.mem_singleton] at he
    subst he
    simp only [lhsInsert, List.filter_nil, List.nil_append, List.mem_singleton] at hi
    subst hi; exact hid
  | cons x t ih =>
    obtain ⟨k', q⟩ := x
    have hkt : BKeyed key t := fun e he => hk e (List.mem_cons_of_mem _ he)
    intro e he i hi
    simp only [Verif.bentry] at he
    split at he
    · rcases List.mem_cons.1 he with rfl | he
      · simp only [lhsInsert, List.filter_nil, List.nil_append, List.mem_singleton] at hi
        subst hi; exact hid
      · exact hk e he i hi
    · split at he
      · next heq =>
        rcases List.mem_cons.1 he with rfl | he
        · simp only [lhsInsert, List.mem_append, List.mem_filter, List.mem_singleton] at hi
          rcases hi with hi | hi
          · exact hk (k', q) (List.mem_cons_self ..) i hi.1
          · subst hi; rw [hid, heq]
        · exact hkt e he i hi
      · rcases List.mem_cons.1 he with rfl | he
        · exact hk _ (List.mem_cons_self ..) i hi
        · exact ih hkt e he i hi

/-- All ids in decreasing key order (`iter().rev()`). -/
def revFlat (ix : Index) : List Nat := flat ix.reverse

@[simp] theorem revFlat_nil : revFlat [] = [] := rfl
@[simp] theorem revFlat_cons (e : Nat × List Nat) (t : Index) : revFlat (e :: t) = revFlat t ++ e.2 := by
  simp [revFlat, flat_append]

theorem mem_revFlat {ix : Index} {id : Nat} : id ∈ revFlat ix ↔ id ∈ flat ix := by
  simp [revFlat, mem_flat]

/-- Inserting puts the id behind everything with the same or a larger key, in decreasing key order. -/
theorem revFlat_bentry {key : Nat → Nat} {ix : Index} (hs : BSorted ix) (hk : BKeyed key ix) {k id : Nat}
    (hid : id ∉ flat ix) :
    revFlat (bentry (fun q => lhsInsert q id) ix k) =
      (revFlat ix).filter (fun i => k ≤ key i) ++ id :: (revFlat ix).filter (fun i => decide (key i < k)) := by
  induction ix with
  | nil => simp [bentry, lhsInsert]
  | cons x t ih =>
    obtain ⟨k', q⟩ := x
    have hkt : BKeyed key t := fun e he => hk e (List.mem_cons_of_mem _ he)
    have hkq : ∀ i ∈ q, key i = k' := hk (k', q) (List.mem_cons_self ..)
    have hkt' : ∀ i ∈ revFlat t, k' < key i := by
      intro i hi
      obtain ⟨e, he, hie⟩ := mem_flat.1 (mem_revFlat.1 hi)
      rw [hkt e he i hie]; exact hs.head e he
    simp only [flat_cons, List.mem_append, not_or] at hid
    simp only [bentry]
    split
    · next hlt =>
      have h1 : (revFlat ((k', q) :: t)).filter (fun i => decide (k ≤ key i)) = revFlat ((k', q) :: t) := by
        rw [List.filter_eq_self]
        intro i hi
        rw [revFlat_cons, List.mem_append] at hi
        rcases hi with hi | hi
        · have := hkt' i hi; simp; omega
        · have := hkq i hi; simp; omega
      have h2 : (revFlat ((k', q) :: t)).filter (fun i => decide (key i < k)) = [] := by
        rw [List.filter_eq_nil_iff]
        intro i hi
        rw [revFlat_cons, List.mem_append] at hi
        rcases hi with hi | hi
        · have := hkt' i hi; simp; omega
        · have := hkq i hi; simp; omega
      rw [h1, h2, revFlat_cons]
      simp [lhsInsert]
    · next hnlt =>
      split
      · next heq =>
        subst heq
        have h1 : (revFlat t).filter (fun i => decide (k ≤ key i)) = revFlat t := by
          rw [List.filter_eq_self]; intro i hi; have := hkt' i hi; simp; omega
        have h2 : (revFlat t).filter (fun i => decide (key i < k)) = [] := by
          rw [List.filter_eq_nil_iff]; intro i hi; have := hkt' i hi; simp; omega
        have hq1 : q.filter (fun i => decide (k ≤ key i)) = q := by
          rw [List.filter_eq_self]; intro i hi; simp [hkq i hi]
        have hq2 : q.filter (fun i => decide (key i < k)) = [] := by
          rw [List.filter_eq_nil_iff]; intro i hi; simp [hkq i hi]
        have hqn : q.filter (fun x => decide (x ≠ id)) = q := by
          rw [List.filter_eq_self]; intro i hi
          have : i ≠ id := fun h => hid.1 (h ▸ hi)
          simpa using this
        simp only [revFlat_cons, List.filter_append, h1, h2, hq1, hq2, lhsInsert, hqn, List.append_nil, List.append_assoc]
      · next hne =>
        have hlt : k' < k := by omega
        have hq1 : q.filter (fun i => decide (k ≤ key i)) = [] := by
          rw [List.filter_eq_nil_iff]; intro i hi; simp [hkq i hi]; omega
        have hq2 : q.filter (fun i => decide (key i < k)) = q := by
          rw [List.filter_eq_self]; intro i hi; simp [hkq i hi]; omega
        simp only [revFlat_cons, ih hs.tail hkt hid.2, List.filter_append, hq1, hq2, List.append_nil, List.append_assoc, List.cons_append]

theorem revFlat_bremove {key : Nat → Nat} {ix : Index} (hs : BSorted ix) (hk : BKeyed key ix) {k id : Nat}
    (hid : key id = k) : revFlat (bremove ix k id) = (revFlat ix).filter (· ≠ id) := by
  rw [bremove_eq hs]
  have key' : ∀ (t : Index), BKeyed key t →
      revFlat ((t.map (fun e => if e.1 = k then (e.1, e.2.filter (· ≠ id)) else e)).filter
        (fun e => decide (e.1 ≠ k ∨ e.2 ≠ []))) = (revFlat t).filter (· ≠ id) := by
    intro t
    induction t with
    | nil => intro _; rfl
    | cons e t ih =>
      intro hk
      have hkt : BKeyed key t := fun e he => hk e (List.mem_cons_of_mem _ he)
      have hke := hk e (List.mem_cons_self ..)
      simp only [List.map_cons, List.filter_cons, revFlat_cons, List.filter_append]
      by_cases hek : e.1 = k
      · simp only [hek, if_true, ne_eq, not_true_eq_false, false_or]
        split
        · simp only [revFlat_cons]; rw [ih hkt]
        · next h => simp at h
                    rw [ih hkt]
                    have : e.2.filter (fun x => !decide (x = id)) = [] := by
                      rw [List.filter_eq_nil_iff]; intro a ha; simpa using h a ha
                    simp [this]
      · have hne : e.2.filter (· ≠ id) = e.2 := by
          rw [List.filter_eq_self]
          intro i hi
          have := hke i hi
          have : i ≠ id := by intro h; subst h; exact hek (this.symm.trans hid)
          simpa using this
        simp only [hek, if_false, ne_eq, not_false_iff, true_or, decide_true, if_true, revFlat_cons]
        rw [ih hkt]
        simp only [ne_eq] at hne
        rw [hne]
  exact key' ix hk

theorem BKeyed.congr {key key' : Nat → Nat} {ix : Index} (h : BKeyed key ix)
    (hc : ∀ id ∈ flat ix, key id = key' id) : BKeyed key' ix := by
  intro e he id hid
  rw [← hc id (mem_flat.2 ⟨e, he, hid⟩)]
  exact h e he id hid

end Verif
