/-!
# Association lists

Finite maps as lists of key/value pairs.  `std::collections::HashMap`, `DashMap` and
`hashlink::LinkedHashMap` are all modelled by these: inserting puts the entry at the back
(what `LinkedHashMap::insert` does; for a `HashMap` the order is not observable, and where
the code iterates over a `HashMap` the model takes the iteration order as an input).
-/

namespace Verif

variable {K V W : Type} [DecidableEq K]

/-- Lookup. -/
def mget : List (K × V) → K → Option V
  | [], _ => none
  | (k', v) :: t, k => if k' = k then some v else mget t k

/-- Remove a key. -/
def mdel (m : List (K × V)) (k : K) : List (K × V) := m.filter (fun e => e.1 ≠ k)

/-- Insert at the back, replacing an existing entry. -/
def mset (m : List (K × V)) (k : K) (v : V) : List (K × V) := mdel m k ++ [(k, v)]

/-- Modify the value of an existing key in place (`get_mut`). -/
def mupd (m : List (K × V)) (k : K) (f : V → V) : List (K × V) :=
  m.map (fun e => if e.1 = k then (e.1, f e.2) else e)

/-- Does the map contain the key? -/
def mhas (m : List (K × V)) (k : K) : Bool := (mget m k).isSome

/-- Keys, in list order. -/
def mkeys (m : List (K × V)) : List K := m.map (·.1)

/-- Well-formed: no key occurs twice. -/
def MWF (m : List (K × V)) : Prop := (m.map (·.1)).Nodup

@[simp] theorem mget_nil (k : K) : mget ([] : List (K × V)) k = none := rfl

theorem mget_cons (e : K × V) (t : List (K × V)) (k : K) :
    mget (e :: t) k = if e.1 = k then some e.2 else mget t k := by
  cases e; rfl

theorem mget_append (a b : List (K × V)) (k : K) :
    mget (a ++ b) k = (mget a k).or (mget b k) := by
  induction a with
  | nil => simp
  | cons e t ih =>
    simp only [List.cons_append, mget_cons, ih]
    split <;> simp

theorem mget_mdel_same (m : List (K × V)) (k : K) : mget (mdel m k) k = none := by
  induction m with
  | nil => rfl
  | cons e t ih =>
    unfold mdel at *
    simp only [List.filter_cons]
    split
    · next h => simp only [mget_cons]; simp only [ne_eq, decide_not, Bool.not_eq_eq_eq_not, Bool.not_true, decide_eq_false_iff_not] at h; rw [if_neg h]; exact ih
    · exact ih

theorem mget_mdel_ne (m : List (K × V)) {k k' : K} (h : k' ≠ k) : mget (mdel m k) k' = mget m k' := by
  induction m with
  | nil => rfl
  | cons e t ih =>
    unfold mdel at *
    simp only [List.filter_cons]
    split
    · next h' => simp only [mget_cons, ih]
    · next h' =>
      simp at h'
      simp only [mget_cons, ih, h']
      rw [if_neg (fun hh => h hh.symm)]

theorem mget_mdel (m : List (K × V)) (k k' : K) :
    mget (mdel m k) k' = if k' = k then none else mget m k' := by
  split
  · next h => subst h; exact mget_mdel_same m _
  · next h => exact mget_mdel_ne m h

theorem mget_mset_same (m : List (K × V)) (k : K) (v : V) : mget (mset m k v) k = some v := by
  simp [mset, mget_append, mget_mdel_same, mget_cons]

theorem mget_mset_ne (m : List (K × V)) {k k' : K} (v : V) (h : k' ≠ k) :
    mget (mset m k v) k' = mget m k' := by
  simp only [mset, mget_append, mget_mdel_ne m h, mget_cons, mget_nil]
  rw [if_neg (fun hh => h hh.symm)]; simp

theorem mget_mset (m : List (K × V)) (k k' : K) (v : V) :
    mget (mset m k v) k' = if k' = k then some v else mget m k' := by
  split
  · next h => subst h; exact mget_mset_same m _ v
  · next h => exact mget_mset_ne m v h

theorem mget_mupd (m : List (K × V)) (k k' : K) (f : V → V) :
    mget (mupd m k f) k' = if k' = k then (mget m k').map f else mget m k' := by
  induction m with
  | nil => simp [mupd]
  | cons e t ih =>
    unfold mupd at *
    simp only [List.map_cons, mget_cons]
    by_cases hk : e.1 = k
    · by_cases hk' : k' = k
      · simp_all
      · have : ¬ k = k' := fun h => hk' h.symm
        simp_all
    · by_cases hk' : e.1 = k'
      · have : ¬ k' = k := fun h => hk (hk'.trans h)
        simp_all
      · simp_all

theorem mget_some_mem {m : List (K × V)} {k : K} {v : V} (h : mget m k = some v) : (k, v) ∈ m := by
  induction m with
  | nil => simp at h
  | cons e t ih =>
    simp only [mget_cons] at h
    split at h
    · next hk => simp at h; subst hk; subst h; simp
    · exact List.mem_cons_of_mem _ (ih h)

theorem mget_eq_none {m : List (K × V)} {k : K} : mget m k = none ↔ k ∉ mkeys m := by
  induction m with
  | nil => simp [mkeys]
  | cons e t ih =>
    simp only [mget_cons, mkeys, List.map_cons, List.mem_cons, not_or] at *
    split
    · next h => simp [h]
    · next h => rw [ih]; constructor
                · intro h'; exact ⟨fun hh => h hh.symm, h'⟩
                · intro h'; exact h'.2

theorem mget_isSome {m : List (K × V)} {k : K} : (mget m k).isSome ↔ k ∈ mkeys m := by
  have := @mget_eq_none K V _ m k
  by_cases h : k ∈ mkeys m
  · simp only [h, not_true, iff_false] at this
    simp only [h, iff_true]
    cases hg : mget m k <;> simp_all
  · simp only [h, not_false_iff, iff_true] at this
    simp [this, h]

theorem mhas_iff {m : List (K × V)} {k : K} : mhas m k = true ↔ k ∈ mkeys m := mget_isSome

theorem MWF.mem_iff {m : List (K × V)} (h : MWF m) {k : K} {v : V} : (k, v) ∈ m ↔ mget m k = some v := by
  constructor
  · intro hm
    induction m with
    | nil => simp at hm
    | cons e t ih =>
      simp only [MWF, List.map_cons, List.nodup_cons] at h
      simp only [mget_cons]
      rcases List.mem_cons.1 hm with rfl | hm'
      · simp
      · have : k ∈ t.map (·.1) := List.mem_map.2 ⟨_, hm', rfl⟩
        rw [if_neg (fun hh : e.1 = k => h.1 (hh ▸ this))]
        exact ih h.2 hm'
  · exact mget_some_mem

omit [DecidableEq K] in
theorem MWF.nil : MWF ([] : List (K × V)) := List.nodup_nil

theorem mkeys_mdel (m : List (K × V)) (k : K) : mkeys (mdel m k) = (mkeys m).filter (· ≠ k) := by
  simp [mkeys, mdel, List.filter_map, Function.comp_def]

theorem MWF.mdel {m : List (K × V)} (h : MWF m) (k : K) : MWF (Verif.mdel m k) := by
  unfold MWF at *
  have := mkeys_mdel m k
  unfold mkeys at this
  rw [this]
  exact h.sublist List.filter_sublist

theorem mkeys_mset (m : List (K × V)) (k : K) (v : V) :
    mkeys (mset m k v) = (mkeys m).filter (· ≠ k) ++ [k] := by
  rw [← mkeys_mdel]; simp [mkeys, mset]

theorem MWF.mset {m : List (K × V)} (h : MWF m) (k : K) (v : V) : MWF (Verif.mset m k v) := by
  have h1 := h.mdel k
  unfold MWF at *
  simp only [Verif.mset, List.map_append, List.map_cons, List.map_nil]
  rw [List.nodup_append]
  refine ⟨h1, by simp, ?_⟩
  intro a ha b hb
  simp at hb; subst hb
  intro hab; subst hab
  have : a ∉ mkeys (Verif.mdel m a) := by rw [← mget_eq_none]; exact mget_mdel_same m a
  exact this ha

theorem mkeys_mupd (m : List (K × V)) (k : K) (f : V → V) : mkeys (mupd m k f) = mkeys m := by
  simp only [mkeys, mupd, List.map_map]
  apply List.map_congr_left
  intro e _
  simp only [Function.comp]
  split <;> rfl

theorem MWF.mupd {m : List (K × V)} (h : MWF m) (k : K) (f : V → V) : MWF (Verif.mupd m k f) := by
  unfold MWF at *
  have := mkeys_mupd m k f
  unfold mkeys at this
  rw [this]; exact h

theorem mem_mkeys_mset {m : List (K × V)} {k k' : K} {v : V} :
    k' ∈ mkeys (mset m k v) ↔ k' = k ∨ k' ∈ mkeys m := by
  rw [mkeys_mset]
  simp only [List.mem_append, List.mem_filter, List.mem_singleton]
  constructor
  · rintro (⟨h, _⟩ | h)
    · exact Or.inr h
    · exact Or.inl h
  · rintro (h | h)
    · exact Or.inr h
    · by_cases hk : k' = k
      · exact Or.inr hk
      · exact Or.inl ⟨h, by simpa using hk⟩

theorem mem_mkeys_mdel {m : List (K × V)} {k k' : K} :
    k' ∈ mkeys (mdel m k) ↔ k' ≠ k ∧ k' ∈ mkeys m := by
  rw [mkeys_mdel]; simp [and_comm]

theorem mdel_of_not_mem {m : List (K × V)} {k : K} (h : k ∉ mkeys m) : mdel m k = m := by
  unfold mdel
  rw [List.filter_eq_self]
  intro e he
  have : e.1 ∈ mkeys m := List.mem_map.2 ⟨e, he, rfl⟩
  simp only [ne_eq, decide_not, Bool.not_eq_eq_eq_not, Bool.not_true, decide_eq_false_iff_not]
  intro hh; exact h (hh ▸ this)

theorem mset_of_not_mem {m : List (K × V)} {k : K} (v : V) (h : k ∉ mkeys m) : mset m k v = m ++ [(k, v)] := by
  simp [mset, mdel_of_not_mem h]

end Verif
