import Verif.Model.Queue
import Verif.Spec.QueueObs

/-!
# The queue model refines the queue specification
-/

namespace Verif.Queue

open Verif.Spec.Queue (Item Dead Q lineUp file dropReady dropFlight)

/-- Look-up function with one entry changed. -/
def fset (f : Id → Option Msg) (id : Id) (v : Option Msg) : Id → Option Msg :=
  fun i => if i = id then v else f i

@[simp] theorem fset_same (f : Id → Option Msg) (id : Id) (v : Option Msg) : fset f id v id = v := by simp [fset]
theorem fset_ne (f : Id → Option Msg) {id i : Id} (v : Option Msg) (h : i ≠ id) : fset f id v i = f i := by simp [fset, h]
@[simp] theorem fset_fset (f : Id → Option Msg) (id : Id) (v w : Option Msg) : fset (fset f id v) id w = fset f id w := by
  funext i; by_cases h : i = id <;> simp [fset, h]

theorem mget_mdel_fun (reg : List (Id × Msg)) (id : Id) : mget (mdel reg id) = fset (mget reg) id none := by
  funext i; simp only [fset]; rw [mget_mdel]

theorem mget_mset_fun (reg : List (Id × Msg)) (id : Id) (m : Msg) : mget (mset reg id m) = fset (mget reg) id (some m) := by
  funext i; simp only [fset]; rw [mget_mset]

theorem mget_mupd_fun (reg : List (Id × Msg)) (id : Id) (g : Msg → Msg) :
    mget (mupd reg id g) = fset (mget reg) id ((mget reg id).map g) := by
  funext i; simp only [fset]; rw [mget_mupd]
  by_cases h : i = id <;> simp [h]

def prioK (f : Id → Option Msg) (id : Id) : Nat := match f id with | some m => m.priority | none => 0
def dueK (f : Id → Option Msg) (id : Id) : Nat :=
  match f id with | some m => (match m.state with | .inFlight ts => ts | .ready => 0) | none => 0

/-- Registry (as a look-up function) and indexes represent the waiting line and the handed-out list. -/
structure RS (f : Id → Option Msg) (disp ackw : Index) (r : List Item) (fl : List (Nat × Item)) : Prop where
  bsd : BSorted disp
  bsa : BSorted ackw
  bfd : BFull disp
  bfa : BFull ackw
  kd : BKeyed (prioK f) disp
  ka : BKeyed (dueK f) ackw
  idr : revFlat disp = r.map (·.id)
  idf : flat ackw = fl.map (·.2.id)
  cr : ∀ x ∈ r, ∃ m, f x.id = some m ∧ m.item = x ∧ m.state = .ready
  cf : ∀ e ∈ fl, ∃ m, f e.2.id = some m ∧ m.item = e.2 ∧ m.state = .inFlight e.1
  comp : ∀ id m, f id = some m → m.id = id ∧
    ((m.state = .ready ∧ m.item ∈ r) ∨ (∃ ts, m.state = .inFlight ts ∧ (ts, m.item) ∈ fl))
  ndr : (r.map (·.id)).Nodup
  ndf : (fl.map (·.2.id)).Nodup

theorem nodup_append_cons_perm {l : List Nat} {p : Nat → Bool} {a : Nat} (h : l.Nodup) (ha : a ∉ l) :
    (l.filter p ++ a :: l.filter (fun x => !p x)).Nodup := by
  have hp : (l.filter p ++ l.filter (fun x => !p x)).Perm l := List.filter_append_perm p l
  have h1 : (a :: (l.filter p ++ l.filter (fun x => !p x))).Nodup :=
    List.nodup_cons.2 ⟨fun hm => ha (hp.mem_iff.1 hm), hp.nodup_iff.2 h⟩
  exact (List.perm_middle).nodup_iff.2 h1

namespace RS

variable {f : Id → Option Msg} {disp ackw : Index} {r : List Item} {fl : List (Nat × Item)}

theorem ready_iff (h : RS f disp ackw r fl) {id : Id} {m : Msg} (hm : f id = some m) :
    m.state = .ready ↔ id ∈ r.map (·.id) := by
  constructor
  · intro hs
    obtain ⟨hid, hc⟩ := h.comp id m hm
    rcases hc with ⟨_, hc⟩ | ⟨ts, hts, _⟩
    · exact List.mem_map.2 ⟨_, hc, hid⟩
    · rw [hs] at hts; cases hts
  · intro hr
    obtain ⟨x, hx, hxi⟩ := List.mem_map.1 hr
    obtain ⟨m', hm', _, hs⟩ := h.cr x hx
    rw [hxi, hm] at hm'
    cases hm'; exact hs

theorem flight_iff (h : RS f disp ackw r fl) {id : Id} {m : Msg} (hm : f id = some m) {ts : Nat} :
    m.state = .inFlight ts ↔ (ts, m.item) ∈ fl := by
  constructor
  · intro hs
    obtain ⟨hid, hc⟩ := h.comp id m hm
    rcases hc with ⟨hc, _⟩ | ⟨ts', hts, hc⟩
    · rw [hs] at hc; cases hc
    · rw [hs] at hts; cases hts; exact hc
  · intro hr
    obtain ⟨m', hm', _, hs⟩ := h.cf _ hr
    have hid := (h.comp id m hm).1
    have : m.item.id = id := hid
    simp only [this, hm] at hm'
    cases hm'; exact hs

theorem mem_disp (h : RS f disp ackw r fl) {id : Id} : id ∈ flat disp ↔ id ∈ r.map (·.id) := by
  rw [← mem_revFlat, h.idr]

theorem none_not_ready (h : RS f disp ackw r fl) {id : Id} (hn : f id = none) : id ∉ r.map (·.id) := by
  intro hr
  obtain ⟨x, hx, hxi⟩ := List.mem_map.1 hr
  obtain ⟨m, hm, _⟩ := h.cr x hx
  rw [hxi, hn] at hm; cases hm

theorem none_not_flight (h : RS f disp ackw r fl) {id : Id} (hn : f id = none) : id ∉ fl.map (·.2.id) := by
  intro hr
  obtain ⟨x, hx, hxi⟩ := List.mem_map.1 hr
  obtain ⟨m, hm, _⟩ := h.cf x hx
  rw [hxi, hn] at hm; cases hm

theorem prio_eq (h : RS f disp ackw r fl) {x : Item} (hx : x ∈ r) : prioK f x.id = x.priority := by
  obtain ⟨m, hm, hi, _⟩ := h.cr x hx
  subst hi; simp only [prioK, hm]; rfl

theorem due_eq (h : RS f disp ackw r fl) {e : Nat × Item} (he : e ∈ fl) : dueK f e.2.id = e.1 := by
  obtain ⟨m, hm, _, hs⟩ := h.cf e he
  simp only [dueK, hm, hs]

theorem prioK_fset {id i : Id} {v : Option Msg} (h : i ≠ id) : prioK (fset f id v) i = prioK f i := by
  simp only [prioK, fset_ne f v h]

theorem dueK_fset {id i : Id} {v : Option Msg} (h : i ≠ id) : dueK (fset f id v) i = dueK f i := by
  simp only [dueK, fset_ne f v h]

/-- Deleting a message. -/
theorem del (h : RS f disp ackw r fl) {id : Id} {m : Msg} (hm : f id = some m) :
    RS (fset f id none)
      (match m.state with | .ready => bremove disp m.priority id | .inFlight _ => disp)
      (match m.state with | .ready => ackw | .inFlight ts => bremove ackw ts id)
      (dropReady id r) (dropFlight id fl) := by
  have hdr : ∀ x ∈ dropReady id r, x ∈ r ∧ x.id ≠ id := by
    intro x hx; simpa [dropReady] using List.mem_filter.1 hx
  have hdf : ∀ x ∈ dropFlight id fl, x ∈ fl ∧ x.2.id ≠ id := by
    intro x hx; simpa [dropFlight] using List.mem_filter.1 hx
  have mapr : (dropReady id r).map (·.id) = (r.map (·.id)).filter (· ≠ id) := by
    simp only [dropReady, List.filter_map]; rfl
  have mapf : (dropFlight id fl).map (·.2.id) = (fl.map (·.2.id)).filter (· ≠ id) := by
    simp only [dropFlight, List.filter_map]; rfl
  have ercr : ∀ x ∈ dropReady id r, ∃ m, fset f id none x.id = some m ∧ m.item = x ∧ m.state = .ready := by
    intro x hx
    obtain ⟨h1, h2⟩ := hdr x hx
    rw [fset_ne _ _ h2]; exact h.cr x h1
  have ercf : ∀ e ∈ dropFlight id fl, ∃ m, fset f id none e.2.id = some m ∧ m.item = e.2 ∧ m.state = .inFlight e.1 := by
    intro x hx
    obtain ⟨h1, h2⟩ := hdf x hx
    rw [fset_ne _ _ h2]; exact h.cf x h1
  have ercomp : ∀ i m, fset f id none i = some m → m.id = i ∧
      ((m.state = .ready ∧ m.item ∈ dropReady id r) ∨ (∃ ts, m.state = .inFlight ts ∧ (ts, m.item) ∈ dropFlight id fl)) := by
    intro i m' hm'
    by_cases hi : i = id
    · subst hi; simp at hm'
    · rw [fset_ne _ _ hi] at hm'
      obtain ⟨h1, h2⟩ := h.comp i m' hm'
      have h1' : m'.item.id ≠ id := by rw [show m'.item.id = m'.id from rfl, h1]; exact hi
      refine ⟨h1, ?_⟩
      rcases h2 with ⟨h2, h3⟩ | ⟨ts, h2, h3⟩
      · left; exact ⟨h2, List.mem_filter.2 ⟨h3, by simpa using h1'⟩⟩
      · right; exact ⟨ts, h2, List.mem_filter.2 ⟨h3, by simpa using h1'⟩⟩
  have endr : ((dropReady id r).map (·.id)).Nodup := by rw [mapr]; exact h.ndr.filter _
  have endf : ((dropFlight id fl).map (·.2.id)).Nodup := by rw [mapf]; exact h.ndf.filter _
  cases hs : m.state with
  | ready =>
    simp only
    have hnf : id ∉ flat ackw := by
      rw [h.idf]; intro hf
      obtain ⟨e, he, hei⟩ := List.mem_map.1 hf
      obtain ⟨m', hm', _, hs'⟩ := h.cf e he
      rw [hei, hm] at hm'; cases hm'; rw [hs] at hs'; cases hs'
    have hrev := revFlat_bremove h.bsd h.kd (k := m.priority) (id := id) (by simp only [prioK, hm])
    have hfl := flat_bremove h.bsd h.kd (k := m.priority) (id := id) (by simp only [prioK, hm])
    refine ⟨h.bsd.bremove _ _, h.bsa, h.bfd.bremove h.bsd _ _, h.bfa, ?_, ?_, ?_, ?_, ercr, ercf, ercomp, endr, endf⟩
    · refine (h.kd.bremove h.bsd _ _).congr ?_
      intro i hi
      rw [hfl] at hi
      have : i ≠ id := by simpa using (List.mem_filter.1 hi).2
      rw [prioK_fset this]
    · refine h.ka.congr ?_
      intro i hi
      have : i ≠ id := fun hh => hnf (hh ▸ hi)
      rw [dueK_fset this]
    · rw [hrev, mapr, h.idr]
    · rw [mapf, ← h.idf, List.filter_eq_self.2]
      intro i hi
      have : i ≠ id := fun hh => hnf (hh ▸ hi)
      simpa using this
  | inFlight ts =>
    simp only
    have hnr : id ∉ flat disp := by
      rw [h.mem_disp, ← h.ready_iff hm, hs]; simp
    have hfl := flat_bremove h.bsa h.ka (k := ts) (id := id) (by simp only [dueK, hm, hs])
    refine ⟨h.bsd, h.bsa.bremove _ _, h.bfd, h.bfa.bremove h.bsa _ _, ?_, ?_, ?_, ?_, ercr, ercf, ercomp, endr, endf⟩
    · refine h.kd.congr ?_
      intro i hi
      have : i ≠ id := fun hh => hnr (hh ▸ hi)
      rw [prioK_fset this]
    · refine (h.ka.bremove h.bsa _ _).congr ?_
      intro i hi
      rw [hfl] at hi
      have : i ≠ id := by simpa using (List.mem_filter.1 hi).2
      rw [dueK_fset this]
    · rw [mapr, ← h.idr, List.filter_eq_self.2]
      intro i hi
      have : i ≠ id := fun hh => hnr (hh ▸ mem_revFlat.1 hi)
      simpa using this
    · rw [hfl, mapf, h.idf]

/-- Inserting a ready message. -/
theorem insReady (h : RS f disp ackw r fl) {m : Msg} (hn : f m.id = none) (hs : m.state = .ready) :
    RS (fset f m.id (some m)) (bentry (fun q => lhsInsert q m.id) disp m.priority) ackw
      (lineUp m.item r) fl := by
  have hnr := h.none_not_ready hn
  have hnf := h.none_not_flight hn
  have hnd : m.id ∉ flat disp := by rw [h.mem_disp]; exact hnr
  have hna : m.id ∉ flat ackw := by rw [h.idf]; exact hnf
  have e1 : (r.map (·.id)).filter (fun i => decide (m.priority ≤ prioK f i)) = (r.filter (fun y => decide (m.item.priority ≤ y.priority))).map (·.id) := by
    rw [List.filter_map]
    congr 1
    apply List.filter_congr
    intro x hx
    simp only [Function.comp, h.prio_eq hx, Msg.item]; rfl
  have e2 : (r.map (·.id)).filter (fun i => decide (prioK f i < m.priority)) = (r.filter (fun y => decide (y.priority < m.item.priority))).map (·.id) := by
    rw [List.filter_map]
    congr 1
    apply List.filter_congr
    intro x hx
    simp only [Function.comp, h.prio_eq hx, Msg.item]; rfl
  have hids : revFlat (bentry (fun q => lhsInsert q m.id) disp m.priority) = (lineUp m.item r).map (·.id) := by
    rw [revFlat_bentry h.bsd h.kd hnd, h.idr, e1, e2]
    simp [lineUp, Msg.item]
  have hmem : ∀ x, x ∈ lineUp m.item r ↔ x = m.item ∨ x ∈ r := by
    intro x
    simp only [lineUp, List.mem_append, List.mem_cons, List.mem_filter, decide_eq_true_eq]
    constructor
    · rintro (⟨h, _⟩ | h | ⟨h, _⟩)
      · exact Or.inr h
      · exact Or.inl h
      · exact Or.inr h
    · rintro (h | h)
      · exact Or.inr (Or.inl h)
      · by_cases hp : m.item.priority ≤ x.priority
        · exact Or.inl ⟨h, hp⟩
        · exact Or.inr (Or.inr ⟨h, by omega⟩)
  refine ⟨h.bsd.bentry _ _, h.bsa, h.bfd.bentry _ _, h.bfa, ?_, ?_, hids, h.idf, ?_, ?_, ?_, ?_, h.ndf⟩
  · refine BKeyed.bentry ?_ (by simp [prioK])
    refine h.kd.congr ?_
    intro i hi
    have : i ≠ m.id := fun hh => hnd (hh ▸ hi)
    rw [prioK_fset this]
  · refine h.ka.congr ?_
    intro i hi
    have : i ≠ m.id := fun hh => hna (hh ▸ hi)
    rw [dueK_fset this]
  · intro x hx
    rcases (hmem x).1 hx with rfl | hx
    · exact ⟨m, by simp [Msg.item], rfl, hs⟩
    · have : x.id ≠ m.id := fun hh => hnr (hh ▸ List.mem_map.2 ⟨x, hx, rfl⟩)
      rw [fset_ne _ _ this]; exact h.cr x hx
  · intro x hx
    have : x.2.id ≠ m.id := fun hh => hnf (hh ▸ List.mem_map.2 ⟨x, hx, rfl⟩)
    rw [fset_ne _ _ this]; exact h.cf x hx
  · intro i m' hm'
    by_cases hi : i = m.id
    · subst hi; simp at hm'; subst hm'
      exact ⟨rfl, Or.inl ⟨hs, (hmem _).2 (Or.inl rfl)⟩⟩
    · rw [fset_ne _ _ hi] at hm'
      obtain ⟨h1, h2⟩ := h.comp i m' hm'
      refine ⟨h1, ?_⟩
      rcases h2 with ⟨h2, h3⟩ | h2
      · exact Or.inl ⟨h2, (hmem _).2 (Or.inr h3)⟩
      · exact Or.inr h2
  · rw [← hids, revFlat_bentry h.bsd h.kd hnd]
    have hnd' : (revFlat disp).Nodup := by rw [h.idr]; exact h.ndr
    have := nodup_append_cons_perm (p := fun i => decide (m.priority ≤ prioK f i)) hnd' (fun hh => hnd (mem_revFlat.1 hh))
    have e3 : (fun x => !decide (m.priority ≤ prioK f x)) = (fun i => decide (prioK f i < m.priority)) := by
      funext i; by_cases hp : m.priority ≤ prioK f i
      · simp [hp, Nat.not_lt.2 hp]
      · simp [hp, Nat.not_le.1 hp]
    rwa [e3] at this

/-- Inserting a handed-out message. -/
theorem insFlight (h : RS f disp ackw r fl) {m : Msg} {ts : Nat} (hn : f m.id = none) (hs : m.state = .inFlight ts) :
    RS (fset f m.id (some m)) disp (bentry (fun q => lhsInsert q m.id) ackw ts)
      r (file ts m.item fl) := by
  have hnr := h.none_not_ready hn
  have hnf := h.none_not_flight hn
  have hnd : m.id ∉ flat disp := by rw [h.mem_disp]; exact hnr
  have hna : m.id ∉ flat ackw := by rw [h.idf]; exact hnf
  have e1 : (fl.map (·.2.id)).filter (fun i => decide (dueK f i ≤ ts)) = (fl.filter (fun y => decide (y.1 ≤ ts))).map (·.2.id) := by
    rw [List.filter_map]
    congr 1
    apply List.filter_congr
    intro x hx
    simp only [Function.comp, h.due_eq hx]
  have e2 : (fl.map (·.2.id)).filter (fun i => decide (ts < dueK f i)) = (fl.filter (fun y => decide (ts < y.1))).map (·.2.id) := by
    rw [List.filter_map]
    congr 1
    apply List.filter_congr
    intro x hx
    simp only [Function.comp, h.due_eq hx]
  have hids : flat (bentry (fun q => lhsInsert q m.id) ackw ts) = (file ts m.item fl).map (·.2.id) := by
    rw [flat_bentry h.bsa h.ka hna, h.idf, e1, e2]
    simp [file, Msg.item]
  have hmem : ∀ x, x ∈ file ts m.item fl ↔ x = (ts, m.item) ∨ x ∈ fl := by
    intro x
    simp only [file, List.mem_append, List.mem_cons, List.mem_filter, decide_eq_true_eq]
    constructor
    · rintro (⟨h, _⟩ | h | ⟨h, _⟩)
      · exact Or.inr h
      · exact Or.inl h
      · exact Or.inr h
    · rintro (h | h)
      · exact Or.inr (Or.inl h)
      · by_cases hp : x.1 ≤ ts
        · exact Or.inl ⟨h, hp⟩
        · exact Or.inr (Or.inr ⟨h, by omega⟩)
  refine ⟨h.bsd, h.bsa.bentry _ _, h.bfd, h.bfa.bentry _ _, ?_, ?_, h.idr, hids, ?_, ?_, ?_, h.ndr, ?_⟩
  · refine h.kd.congr ?_
    intro i hi
    have : i ≠ m.id := fun hh => hnd (hh ▸ hi)
    rw [prioK_fset this]
  · refine BKeyed.bentry ?_ (by simp [dueK, hs])
    refine h.ka.congr ?_
    intro i hi
    have : i ≠ m.id := fun hh => hna (hh ▸ hi)
    rw [dueK_fset this]
  · intro x hx
    have : x.id ≠ m.id := fun hh => hnr (hh ▸ List.mem_map.2 ⟨x, hx, rfl⟩)
    rw [fset_ne _ _ this]; exact h.cr x hx
  · intro x hx
    rcases (hmem x).1 hx with rfl | hx
    · exact ⟨m, by simp [Msg.item], rfl, hs⟩
    · have : x.2.id ≠ m.id := fun hh => hnf (hh ▸ List.mem_map.2 ⟨x, hx, rfl⟩)
      rw [fset_ne _ _ this]; exact h.cf x hx
  · intro i m' hm'
    by_cases hi : i = m.id
    · subst hi; simp at hm'; subst hm'
      exact ⟨rfl, Or.inr ⟨ts, hs, (hmem _).2 (Or.inl rfl)⟩⟩
    · rw [fset_ne _ _ hi] at hm'
      obtain ⟨h1, h2⟩ := h.comp i m' hm'
      refine ⟨h1, ?_⟩
      rcases h2 with h2 | ⟨ts', h2, h3⟩
      · exact Or.inl h2
      · exact Or.inr ⟨ts', h2, (hmem _).2 (Or.inr h3)⟩
  · rw [← hids, flat_bentry h.bsa h.ka hna]
    have hnd' : (flat ackw).Nodup := by rw [h.idf]; exact h.ndf
    have := nodup_append_cons_perm (p := fun i => decide (dueK f i ≤ ts)) hnd' hna
    have e3 : (fun x => !decide (dueK f x ≤ ts)) = (fun i => decide (ts < dueK f i)) := by
      funext i; by_cases hp : dueK f i ≤ ts
      · simp [hp, Nat.not_lt.2 hp]
      · simp [hp, Nat.not_le.1 hp]
    rwa [e3] at this

/-- Changing fields the specification does not see. -/
theorem upd (h : RS f disp ackw r fl) {id : Id} {m m' : Msg} (hm : f id = some m)
    (hi : m'.item = m.item) (hst : m'.state = m.state) : RS (fset f id (some m')) disp ackw r fl := by
  have hid := (h.comp id m hm).1
  have hpr : prioK (fset f id (some m')) = prioK f := by
    funext i
    by_cases hh : i = id
    · subst hh; simp only [prioK, fset_same, hm]; exact congrArg Item.priority hi
    · exact prioK_fset hh
  have hdu : dueK (fset f id (some m')) = dueK f := by
    funext i
    by_cases hh : i = id
    · subst hh; simp only [dueK, fset_same, hm, hst]
    · exact dueK_fset hh
  refine ⟨h.bsd, h.bsa, h.bfd, h.bfa, hpr ▸ h.kd, hdu ▸ h.ka, h.idr, h.idf, ?_, ?_, ?_, h.ndr, h.ndf⟩
  · intro x hx
    obtain ⟨n, h1, h2, h3⟩ := h.cr x hx
    by_cases hh : x.id = id
    · rw [hh, hm] at h1; cases h1
      exact ⟨m', by rw [hh]; simp, by rw [hi, h2], by rw [hst, h3]⟩
    · exact ⟨n, by rw [fset_ne _ _ hh]; exact h1, h2, h3⟩
  · intro x hx
    obtain ⟨n, h1, h2, h3⟩ := h.cf x hx
    by_cases hh : x.2.id = id
    · rw [hh, hm] at h1; cases h1
      exact ⟨m', by rw [hh]; simp, by rw [hi, h2], by rw [hst, h3]⟩
    · exact ⟨n, by rw [fset_ne _ _ hh]; exact h1, h2, h3⟩
  · intro i n hn
    by_cases hh : i = id
    · subst hh; simp at hn; subst hn
      obtain ⟨h1, h2⟩ := h.comp i m hm
      refine ⟨(congrArg Item.id hi).trans h1, ?_⟩
      rw [hi, hst]; exact h2
    · rw [fset_ne _ _ hh] at hn; exact h.comp i n hn

end RS

/-! ## Operations on the state -/

/-- The state represents a waiting line and a handed-out list. -/
def SR (s : QState) (r : List Item) (fl : List (Nat × Item)) : Prop :=
  RS (mget s.registry) s.disp s.ackw r fl

theorem dropReady_of_not_mem {id : Nat} {r : List Item} (h : id ∉ r.map (·.id)) : dropReady id r = r := by
  unfold dropReady
  rw [List.filter_eq_self]
  intro x hx
  have : x.id ≠ id := fun hh => h (hh ▸ List.mem_map.2 ⟨x, hx, rfl⟩)
  simpa using this

theorem dropFlight_of_not_mem {id : Nat} {fl : List (Nat × Item)} (h : id ∉ fl.map (·.2.id)) : dropFlight id fl = fl := by
  unfold dropFlight
  rw [List.filter_eq_self]
  intro x hx
  have : x.2.id ≠ id := fun hh => h (hh ▸ List.mem_map.2 ⟨x, hx, rfl⟩)
  simpa using this

namespace SR

variable {s : QState} {r : List Item} {fl : List (Nat × Item)}

theorem init : SR .new [] [] := by
  refine ⟨List.Pairwise.nil, List.Pairwise.nil, ?_, ?_, ?_, ?_, rfl, rfl, ?_, ?_, ?_, List.nodup_nil, List.nodup_nil⟩
  · intro e he; simp [QState.new] at he
  · intro e he; simp [QState.new] at he
  · intro e he; simp [QState.new] at he
  · intro e he; simp [QState.new] at he
  · intro e he; simp at he
  · intro e he; simp at he
  · intro id m h; simp [QState.new, mget] at h

theorem not_ready (h : SR s r fl) {id : Id} {m : Msg} (hm : mget s.registry id = some m) {ts : Nat}
    (hs : m.state = .inFlight ts) : id ∉ r.map (·.id) := by
  rw [← RS.ready_iff h hm, hs]; simp

theorem not_flight (h : SR s r fl) {id : Id} {m : Msg} (hm : mget s.registry id = some m)
    (hs : m.state = .ready) : id ∉ fl.map (·.2.id) := by
  intro hf
  obtain ⟨e, he, hei⟩ := List.mem_map.1 hf
  obtain ⟨m', hm', _, hs'⟩ := RS.cf h e he
  rw [hei, hm] at hm'; cases hm'; rw [hs] at hs'; cases hs'

theorem push (h : SR s r fl) {m : Msg} (hn : mget s.registry m.id = none) (hs : m.state = .ready) :
    SR (s.push m) (lineUp m.item r) fl ∧
      mget (s.push m).registry = fset (mget s.registry) m.id (some m) := by
  have := RS.insReady h hn hs
  unfold QState.push SR
  simp only [hs, mget_mset_fun]
  exact ⟨this, trivial⟩

theorem delete (h : SR s r fl) {id : Id} {m : Msg} (hm : mget s.registry id = some m) :
    (s.deleteMessage id).1 = some m ∧ SR (s.deleteMessage id).2 (dropReady id r) (dropFlight id fl) ∧
      mget (s.deleteMessage id).2.registry = fset (mget s.registry) id none := by
  have := RS.del h hm
  unfold QState.deleteMessage
  simp only [hm, QState.removeFromIndex, true_and]
  cases hs : m.state with
  | ready =>
    simp only [hs] at this
    simp only [SR, mget_mdel_fun]
    exact ⟨this, trivial⟩
  | inFlight ts =>
    simp only [hs] at this
    simp only [SR, mget_mdel_fun]
    exact ⟨this, trivial⟩

/-- A handed-out message lines up again. -/
theorem toReady (h : SR s r fl) {id : Id} {m : Msg} (hm : mget s.registry id = some m) {ts : Nat}
    (hs : m.state = .inFlight ts) :
    (s.transitionTo id .ready).1 = true ∧
    SR (s.transitionTo id .ready).2 (lineUp m.item r) (dropFlight id fl) ∧
    mget (s.transitionTo id .ready).2.registry = fset (mget s.registry) id (some { m with state := .ready }) := by
  have hid := (RS.comp h id m hm).1
  have hd := RS.del h hm
  simp only [hs] at hd
  rw [dropReady_of_not_mem (not_ready h hm hs)] at hd
  have hi := hd.insReady (m := { m with state := .ready }) (by simp [hid]) rfl
  simp only [hid, fset_fset] at hi
  unfold QState.transitionTo
  simp only [hm, hs, reduceCtorEq, if_false, QState.removeFromIndex, SR, mget_mupd_fun, Option.map_some, true_and, and_true]
  simpa only [Msg.item, hid] using hi

/-- A waiting message is handed out. -/
theorem toFlight (h : SR s r fl) {id : Id} {m : Msg} (hm : mget s.registry id = some m)
    (hs : m.state = .ready) (ts : Nat) (m' : Msg) (hm' : m'.id = id) (hs' : m'.state = .inFlight ts) :
    let t := (s.transitionTo id (.inFlight ts)).2
    RS (fset (mget t.registry) id (some m')) t.disp t.ackw (dropReady id r) (file ts m'.item fl) ∧
    mget t.registry = fset (mget s.registry) id (some { m with state := .inFlight ts }) := by
  have hd := RS.del h hm
  simp only [hs] at hd
  rw [dropFlight_of_not_mem (not_flight h hm hs)] at hd
  have hi := hd.insFlight (m := m') (ts := ts) (by simp [hm']) hs'
  simp only [hm', fset_fset] at hi
  unfold QState.transitionTo
  simp only [hm, hs, reduceCtorEq, if_false, QState.removeFromIndex, mget_mupd_fun, Option.map_some, fset_fset, and_true]
  exact hi

theorem upd (h : SR s r fl) {id : Id} {m : Msg} (hm : mget s.registry id = some m) (g : Msg → Msg)
    (hi : (g m).item = m.item) (hst : (g m).state = m.state) :
    SR { s with registry := mupd s.registry id g } r fl := by
  unfold SR
  simp only [mget_mupd_fun, hm, Option.map_some]
  exact RS.upd h hm hi hst

end SR

theorem findSome_head (ix : Index) : ix.findSome? (fun e => e.2.head?) = (flat ix).head? := by
  induction ix with
  | nil => rfl
  | cons e t ih =>
    simp only [List.findSome?_cons, flat_cons]
    cases h : e.2 with
    | nil => simp [ih]
    | cons a l => simp

theorem QState.nextId_eq (s : QState) : s.nextId = (revFlat s.disp).head? := by
  unfold QState.nextId revFlat; exact findSome_head _

/-- Serving one message. -/
theorem SR.popSingle {s : QState} {r : List Item} {fl : List (Nat × Item)} {d : List Dead} (h : SR s r fl) (now vt : Nat) :
    let p := s.popSingle now vt
    let a := Spec.Queue.serve (now + vt) ⟨r, fl, d⟩
    SR p.2.2 a.2.ready a.2.flight ∧ p.1.map Msg.item = a.1 ∧ a.2.dead = d ∧
      (∀ m, p.1 = some m → mget p.2.2.registry = fset (mget s.registry) m.id (some m) ∧
        ∃ m0, mget s.registry m.id = some m0 ∧ m0.state = .ready ∧
          m = { m0 with visibleAt := now + vt, attempts := m0.attempts + 1, state := .inFlight (now + vt) }) ∧
      (p.1 = none → p.2.2 = s) := by
  cases r with
  | nil =>
    have hn : s.nextId = none := by rw [QState.nextId_eq, RS.idr h]; rfl
    simp only [QState.popSingle, hn, Spec.Queue.serve]
    exact ⟨h, rfl, trivial, (by simp), (by simp)⟩
  | cons x r =>
    have hn : s.nextId = some x.id := by rw [QState.nextId_eq, RS.idr h]; rfl
    obtain ⟨m, hm, hmi, hms⟩ := RS.cr h x (List.mem_cons_self ..)
    have hid : m.id = x.id := congrArg Item.id hmi
    let m' : Msg := { m with visibleAt := now + vt, attempts := m.attempts + 1, state := .inFlight (now + vt) }
    obtain ⟨h1, h2⟩ := SR.toFlight h hm hms (now + vt) m' hid rfl
    have hg : mget ((s.transitionTo x.id (.inFlight (now + vt))).2).registry x.id = some { m with state := .inFlight (now + vt) } := by
      rw [h2]; simp
    have hdr : dropReady x.id (x :: r) = r := by
      have hnd := RS.ndr h
      simp only [List.map_cons, List.nodup_cons] at hnd
      have := dropReady_of_not_mem hnd.1
      unfold dropReady at this ⊢
      rw [List.filter_cons]
      simp only [ne_eq, not_true_eq_false, decide_false, Bool.false_eq_true, if_false]
      exact this
    have hbump : m'.item = x.bump := by subst hmi; rfl
    rw [hdr, hbump] at h1
    simp only [QState.popSingle, hn, hg, Spec.Queue.serve]
    refine ⟨?_, ?_, trivial, ?_, by simp⟩
    · unfold SR
      simp only [mget_mupd_fun, hg, Option.map_some]
      exact h1
    · simp only [Option.map_some, ← hbump]; rfl
    · intro n hn'
      simp only [Option.some.injEq] at hn'
      subst hn'
      refine ⟨?_, m, ?_, hms, rfl⟩
      · simp only [mget_mupd_fun, hg, Option.map_some, h2, fset_fset, hid]
      · simp only [hid, hm]

theorem SR.takeBatch {d : List Dead} (now vt : Nat) : ∀ (n : Nat) {s : QState} {r : List Item} {fl : List (Nat × Item)},
    SR s r fl →
    let p := s.takeBatch now vt n
    let a := Spec.Queue.serveN (now + vt) n ⟨r, fl, d⟩
    SR p.2.2 a.2.ready a.2.flight ∧ p.1.map Msg.item = a.1 ∧ a.2.dead = d ∧
      (∀ id, mget p.2.2.registry id = none ↔ mget s.registry id = none) := by
  intro n
  induction n with
  | zero => intro s r fl h; exact ⟨h, rfl, rfl, fun _ => Iff.rfl⟩
  | succ n ih =>
    intro s r fl h
    have hp := SR.popSingle (d := d) h now vt
    simp only at hp
    simp only [QState.takeBatch, Spec.Queue.serveN]
    obtain ⟨h1, h2, h3, h4, h5⟩ := hp
    rcases hps : s.popSingle now vt with ⟨o, b, s'⟩
    rcases hsv : Spec.Queue.serve (now + vt) ⟨r, fl, d⟩ with ⟨o', q'⟩
    rw [hps, hsv] at h1 h2
    rw [hsv] at h3
    rw [hps] at h4 h5
    cases o with
    | none =>
      simp at h2; subst h2
      have := h5 rfl; simp only at this; subst this
      exact ⟨h1, rfl, h3, fun _ => Iff.rfl⟩
    | some m =>
      simp at h2; subst h2
      have hi := ih h1
      simp only at hi h3
      have hq : (⟨q'.ready, q'.flight, d⟩ : Q) = q' := by cases q'; simp_all
      rw [hq] at hi
      obtain ⟨i1, i2, i3, i4⟩ := hi
      refine ⟨i1, by simp [i2], i3, ?_⟩
      intro id
      have h4' := h4 m rfl
      simp only at h4' ⊢
      rw [i4, h4'.1]
      by_cases hid : id = m.id
      · obtain ⟨m0, hm0, _⟩ := h4'.2; rw [hid, hm0, fset_same]; simp
      · rw [fset_ne _ _ hid]

theorem find_of_nodup {α : Type} {k : α → Nat} {l : List α} {x : α} (h : (l.map k).Nodup) (hx : x ∈ l) :
    l.find? (fun y => k y = k x) = some x := by
  induction l with
  | nil => cases hx
  | cons y t ih =>
    simp only [List.map_cons, List.nodup_cons] at h
    rw [List.find?_cons]
    rcases List.mem_cons.1 hx with rfl | hx
    · simp
    · have : k y ≠ k x := fun hh => h.1 (hh ▸ List.mem_map.2 ⟨x, hx, rfl⟩)
      simp only [this, decide_false]
      exact ih h.2 hx

theorem find_none {α : Type} {k : α → Nat} {l : List α} {i : Nat} (h : i ∉ l.map k) :
    l.find? (fun y => k y = i) = none := by
  rw [List.find?_eq_none]
  intro x hx
  have : k x ≠ i := fun hh => h (hh ▸ List.mem_map.2 ⟨x, hx, rfl⟩)
  simpa using this

section Lookups
variable {s : QState} {r : List Item} {fl : List (Nat × Item)} {d : List Dead}

open Spec.Queue (lookupReady lookupFlight lookupDead)

theorem SR.look_ready (h : SR s r fl) {id : Id} {m : Msg} (hm : mget s.registry id = some m) (hs : m.state = .ready) :
    lookupReady id ⟨r, fl, d⟩ = some m.item ∧ lookupFlight id ⟨r, fl, d⟩ = none := by
  obtain ⟨hid, hc⟩ := RS.comp h id m hm
  have hmem : m.item ∈ r := by
    rcases hc with hc | ⟨ts, hc, _⟩
    · exact hc.2
    · rw [hs] at hc; cases hc
  constructor
  · have := find_of_nodup (RS.ndr h) hmem
    have hi : m.item.id = id := hid
    simp only [hi] at this
    exact this
  · have := find_none (k := fun e : Nat × Item => e.2.id) (SR.not_flight h hm hs)
    unfold lookupFlight
    simp only
    rw [this]; rfl

theorem SR.look_flight (h : SR s r fl) {id : Id} {m : Msg} (hm : mget s.registry id = some m) {ts : Nat}
    (hs : m.state = .inFlight ts) :
    lookupReady id ⟨r, fl, d⟩ = none ∧ lookupFlight id ⟨r, fl, d⟩ = some m.item := by
  obtain ⟨hid, hc⟩ := RS.comp h id m hm
  have hmem : (ts, m.item) ∈ fl := (RS.flight_iff h hm).1 hs
  constructor
  · exact find_none (k := Item.id) (SR.not_ready h hm hs)
  · have := find_of_nodup (k := fun e : Nat × Item => e.2.id) (RS.ndf h) hmem
    have hi : m.item.id = id := hid
    simp only [hi] at this
    unfold lookupFlight
    simp only
    rw [this]; rfl

theorem SR.look_none (h : SR s r fl) {id : Id} (hm : mget s.registry id = none) :
    lookupReady id ⟨r, fl, d⟩ = none ∧ lookupFlight id ⟨r, fl, d⟩ = none := by
  constructor
  · exact find_none (k := Item.id) (RS.none_not_ready h hm)
  · have := find_none (k := fun e : Nat × Item => e.2.id) (RS.none_not_flight h hm)
    unfold lookupFlight
    simp only
    rw [this]; rfl

theorem SR.ack (h : SR s r fl) (id : Id) :
    SR (s.ack id).2 (dropReady id r) (dropFlight id fl) ∧
    (s.ack id).1 = ((lookupReady id ⟨r, fl, d⟩).isSome || (lookupFlight id ⟨r, fl, d⟩).isSome) ∧
    mget (s.ack id).2.registry = fset (mget s.registry) id none ∧
    (s.ack id).1 = (mget s.registry id).isSome := by
  unfold QState.ack
  cases hm : mget s.registry id with
  | none =>
    have hl := SR.look_none (d := d) h hm
    have hd : s.deleteMessage id = (none, s) := by simp [QState.deleteMessage, hm]
    simp only [hd, hl]
    rw [dropReady_of_not_mem (RS.none_not_ready h hm), dropFlight_of_not_mem (RS.none_not_flight h hm)]
    refine ⟨h, rfl, ?_, trivial⟩
    funext i; by_cases hi : i = id
    · subst hi; simp [hm]
    · rw [fset_ne _ _ hi]
  | some m =>
    obtain ⟨h1, h2, h3⟩ := SR.delete h hm
    simp only [h1]
    refine ⟨h2, ?_, h3, trivial⟩
    cases hs : m.state with
    | ready => simp [SR.look_ready (d := d) h hm hs]
    | inFlight ts => simp [SR.look_flight (d := d) h hm hs]

/-- What a nack does, in terms of the specification, and which message it reports. -/
theorem SR.nack (h : SR s r fl) (id : Id) (reason : Str) (maxRetries now : Nat) :
    let p := s.nack id reason maxRetries now
    let a := Spec.Queue.fail maxRetries id reason now ⟨r, fl, d⟩
    SR p.2 a.2.ready a.2.flight ∧
    (match mget s.registry id with
     | none => p.1 = (none, none) ∧ p.2 = s ∧ a.1 = false ∧ a.2.dead = d
     | some m =>
       a.1 = true ∧
       if maxRetries ≤ m.attempts then
         p.1 = (none, some (DlqMsg.ofMsg m reason now)) ∧ a.2.dead = d ++ [⟨m.item, now, reason⟩] ∧
         mget p.2.registry = fset (mget s.registry) id none
       else
         p.1 = (some { m with failure := some reason, state := .ready, visibleAt := 0 }, none) ∧ a.2.dead = d ∧
         mget p.2.registry = fset (mget s.registry) id (some { m with failure := some reason, state := .ready, visibleAt := 0 })) := by
  cases hm : mget s.registry id with
  | none =>
    have hl := SR.look_none (d := d) h hm
    simp only [QState.nack, hm, Spec.Queue.fail, hl]
    exact ⟨h, trivial, trivial, trivial, trivial⟩
  | some m =>
    have hu := SR.upd h hm (fun m => { m with failure := some reason }) rfl rfl
    have hm2 : mget (mupd s.registry id (fun m => { m with failure := some reason })) id = some { m with failure := some reason } := by
      simp only [mget_mupd_fun, hm, Option.map_some, fset_same]
    simp only [QState.nack, hm]
    by_cases hmax : maxRetries ≤ m.attempts
    · have hmax' : m.attempts ≥ maxRetries := hmax
      simp only [hmax', if_true]
      obtain ⟨d1, d2, d3⟩ := SR.delete hu hm2
      rcases hdm : QState.deleteMessage { s with registry := mupd s.registry id (fun m => { m with failure := some reason }) } id with ⟨o, s'⟩
      rw [hdm] at d1 d2 d3
      simp only at d1 d2 d3
      subst d1
      simp only
      have hreg : mget s'.registry = fset (mget s.registry) id none := by
        rw [d3]; simp only [mget_mupd_fun, fset_fset]
      cases hs : m.state with
      | ready =>
        have hl := SR.look_ready (d := d) h hm hs
        simp only [Spec.Queue.fail, hl, Msg.item, hmax, if_true, Spec.Queue.settle]
        exact ⟨d2, trivial, rfl, trivial, hreg⟩
      | inFlight ts =>
        have hl := SR.look_flight (d := d) h hm hs
        simp only [Spec.Queue.fail, hl, Msg.item, hmax, if_true, Spec.Queue.settle]
        exact ⟨d2, trivial, rfl, trivial, hreg⟩
    · have hmax' : ¬ m.attempts ≥ maxRetries := hmax
      simp only [hmax', if_false]
      cases hs : m.state with
      | ready =>
        have hl := SR.look_ready (d := d) h hm hs
        have ht : QState.transitionTo { s with registry := mupd s.registry id (fun m => { m with failure := some reason }) } id .ready
            = (true, { s with registry := mupd s.registry id (fun m => { m with failure := some reason }) }) := by
          simp only [QState.transitionTo, hm2, hs, if_true]
        have hu2 := SR.upd hu hm2 (fun m => { m with visibleAt := 0 }) rfl rfl
        simp only [ht, Spec.Queue.fail, hl, Msg.item, hmax, if_false]
        simp only [mget_mupd_fun, hm, Option.map_some, fset_fset, fset_same]
        rw [hs]
        refine ⟨hu2, ?_⟩
        simp
      | inFlight ts =>
        have hl := SR.look_flight (d := d) h hm hs
        obtain ⟨t1, t2, t3⟩ := SR.toReady hu hm2 (ts := ts) hs
        rcases ht : QState.transitionTo { s with registry := mupd s.registry id (fun m => { m with failure := some reason }) } id .ready with ⟨b, s'⟩
        rw [ht] at t1 t2 t3
        simp only at t1 t2 t3
        subst t1
        have hm3 : mget s'.registry id = some { m with failure := some reason, state := .ready } := by
          rw [t3]; simp
        have hu2 := SR.upd t2 hm3 (fun m => { m with visibleAt := 0 }) rfl rfl
        simp only [Spec.Queue.fail, hl, Msg.item, hmax, if_false, Spec.Queue.settle]
        simp only [mget_mupd_fun, hm3, Option.map_some, fset_same]
        refine ⟨?_, trivial, trivial, trivial, ?_⟩
        · exact hu2
        · rw [t3]; simp only [fset_fset, mget_mupd_fun]

end Lookups

/-! ## Timeouts -/

theorem takeWhile_flat {key : Nat → Nat} {ix : Index} (hs : BSorted ix) (hk : BKeyed key ix) (now : Nat) :
    (ix.takeWhile (fun e => decide (e.1 ≤ now))).flatMap (·.2) = (flat ix).filter (fun i => decide (key i ≤ now)) := by
  induction ix with
  | nil => rfl
  | cons e t ih =>
    have hkt : BKeyed key t := fun x hx => hk x (List.mem_cons_of_mem _ hx)
    have hke := hk e (List.mem_cons_self ..)
    rw [List.takeWhile_cons, flat_cons, List.filter_append]
    by_cases h : e.1 ≤ now
    · simp only [h, decide_true, if_true, List.flatMap_cons, ih hs.tail hkt]
      congr 1
      symm
      rw [List.filter_eq_self]
      intro i hi; rw [hke i hi]; simpa using h
    · simp only [h, decide_false, Bool.false_eq_true, if_false, List.flatMap_nil]
      have h1 : e.2.filter (fun i => decide (key i ≤ now)) = [] := by
        rw [List.filter_eq_nil_iff]; intro i hi; rw [hke i hi]; simpa using h
      have h2 := (hkt.filter_gt (k := now) (fun x hx => by have := hs.head x hx; omega)).1
      rw [h1, h2]; rfl

theorem SR.expiredIds {s : QState} {r : List Item} {fl : List (Nat × Item)} (h : SR s r fl) (now : Nat) :
    s.expiredIds now = (fl.filter (fun e => decide (e.1 ≤ now))).map (·.2.id) := by
  unfold QState.expiredIds
  rw [takeWhile_flat (RS.bsa h) (RS.ka h), RS.idf h, List.filter_eq_self.2]
  · rw [List.filter_map]
    congr 1
    apply List.filter_congr
    intro e he
    simp only [Function.comp, RS.due_eq h he]
  · intro i hi
    obtain ⟨e, he, rfl⟩ := List.mem_map.1 (List.mem_filter.1 hi).1
    obtain ⟨m, hm, _⟩ := RS.cf h e he
    simp [mhas, hm]

theorem SR.timeout_iff {s : QState} {r : List Item} {fl : List (Nat × Item)} (h : SR s r fl) (now : Nat) :
    (match s.nextTimeout with | none => false | some ts => decide (ts ≤ now)) = fl.any (fun e => e.1 ≤ now) := by
  unfold QState.nextTimeout
  have hb := RS.bsa h
  have hf := RS.bfa h
  have hk := RS.ka h
  have hid := RS.idf h
  cases ha : s.ackw with
  | nil =>
    rw [ha] at hid
    have : fl = [] := by simpa using hid.symm
    subst this; rfl
  | cons e t =>
    rw [ha] at hb hf hk hid
    simp only [List.head?_cons, Option.map_some]
    rw [Bool.eq_iff_iff]
    simp only [decide_eq_true_eq, List.any_eq_true]
    constructor
    · intro hle
      obtain ⟨i, q, hq⟩ := List.exists_cons_of_ne_nil (hf e (List.mem_cons_self ..))
      have hi : i ∈ e.2 := by rw [hq]; exact List.mem_cons_self ..
      have hi' : i ∈ fl.map (·.2.id) := by
        rw [← hid]; exact mem_flat.2 ⟨e, List.mem_cons_self .., hi⟩
      obtain ⟨x, hx, hxi⟩ := List.mem_map.1 hi'
      refine ⟨x, hx, ?_⟩
      rw [← RS.due_eq h hx, hxi, hk e (List.mem_cons_self ..) i hi]; exact hle
    · rintro ⟨x, hx, hle⟩
      have hi' : x.2.id ∈ flat (e :: t) := by rw [hid]; exact List.mem_map.2 ⟨x, hx, rfl⟩
      obtain ⟨y, hy, hyi⟩ := mem_flat.1 hi'
      have h1 := hk y hy _ hyi
      rw [RS.due_eq h hx] at h1
      rcases List.mem_cons.1 hy with rfl | hy
      · omega
      · have := hb.head y hy; omega

theorem SR.requeueAll : ∀ (L : List Item) {s : QState} {r : List Item} {fl : List (Nat × Item)}, SR s r fl →
    (L.map (·.id)).Nodup → (∀ x ∈ L, ∃ ts, (ts, x) ∈ fl) →
    SR (QState.requeueAll (L.map (·.id)) s).2 (L.foldl (fun l x => lineUp x l) r)
      (fl.filter (fun e => e.2.id ∉ L.map (·.id))) ∧
    (QState.requeueAll (L.map (·.id)) s).1.map Msg.item = L ∧
    (∀ m ∈ (QState.requeueAll (L.map (·.id)) s).1, ∃ m0, mget s.registry m.id = some m0 ∧
      m = { m0 with state := .ready, visibleAt := 0 }) ∧
    (∀ i, i ∉ L.map (·.id) → mget (QState.requeueAll (L.map (·.id)) s).2.registry i = mget s.registry i) ∧
    (∀ i, i ∈ L.map (·.id) → mget (QState.requeueAll (L.map (·.id)) s).2.registry i =
      (mget s.registry i).map (fun m => { m with state := .ready, visibleAt := 0 })) := by
  intro L
  induction L with
  | nil =>
    intro s r fl h _ _
    simp only [List.map_nil, QState.requeueAll, List.foldl_nil]
    refine ⟨?_, trivial, by simp, fun _ _ => trivial, by simp⟩
    have : fl.filter (fun e => decide (e.2.id ∉ ([] : List Nat))) = fl := by simp
    rw [this]; exact h
  | cons x L ih =>
    intro s r fl h hnd hfl
    simp only [List.map_cons, List.nodup_cons] at hnd
    obtain ⟨ts, hts⟩ := hfl x (List.mem_cons_self ..)
    obtain ⟨m, hm, hmi, hms⟩ := RS.cf h _ hts
    simp only at hm hmi hms
    have hid : m.id = x.id := congrArg Item.id hmi
    obtain ⟨t1, t2, t3⟩ := SR.toReady h hm hms
    rcases ht : s.transitionTo x.id .ready with ⟨b, s'⟩
    rw [ht] at t1 t2 t3
    simp only at t1 t2 t3
    subst t1
    have hm3 : mget s'.registry x.id = some { m with state := .ready } := by rw [t3]; simp
    have hu := SR.upd t2 hm3 (fun m => { m with visibleAt := 0 }) rfl rfl
    have hone : s.requeueOne x.id = (some { m with state := .ready, visibleAt := 0 },
        { s' with registry := mupd s'.registry x.id (fun m => { m with visibleAt := 0 }) }) := by
      simp only [QState.requeueOne, ht, mget_mupd_fun, hm3, Option.map_some, fset_same]
    have hreg : mget (mupd s'.registry x.id (fun m => { m with visibleAt := 0 })) =
        fset (mget s.registry) x.id (some { m with state := .ready, visibleAt := 0 }) := by
      simp only [mget_mupd_fun, hm3, Option.map_some, t3, fset_fset]
    rw [hmi] at hu
    have hfl' : ∀ y ∈ L, ∃ ts, (ts, y) ∈ dropFlight x.id fl := by
      intro y hy
      obtain ⟨ts', hts'⟩ := hfl y (List.mem_cons_of_mem _ hy)
      refine ⟨ts', List.mem_filter.2 ⟨hts', ?_⟩⟩
      have : y.id ≠ x.id := fun hh => hnd.1 (hh ▸ List.mem_map.2 ⟨y, hy, rfl⟩)
      simpa using this
    obtain ⟨i1, i2, i3, i4, i5⟩ := ih hu hnd.2 hfl'
    simp only [List.map_cons, QState.requeueAll, hone, List.foldl_cons, Option.toList_some, List.cons_append, List.nil_append]
    have hne : ∀ i ∈ L.map (·.id), i ≠ x.id := fun i hi hh => hnd.1 (hh ▸ hi)
    refine ⟨?_, ?_, ?_, ?_, ?_⟩
    · have : fl.filter (fun e => decide (e.2.id ∉ x.id :: L.map (·.id))) =
          (dropFlight x.id fl).filter (fun e => decide (e.2.id ∉ L.map (·.id))) := by
        unfold dropFlight
        rw [List.filter_filter]
        apply List.filter_congr
        intro e _
        simp only [List.mem_cons, not_or, ne_eq]
        rw [Bool.eq_iff_iff]; simp only [decide_eq_true_eq, Bool.and_eq_true]
        exact And.comm
      rw [this]; exact i1
    · rw [i2, ← hmi]; rfl
    · intro n hn
      rcases List.mem_cons.1 hn with rfl | hn
      · exact ⟨m, by simp only [hid]; exact hm, rfl⟩
      · obtain ⟨m0, h1, h2⟩ := i3 n hn
        have hni : n.id ∈ L.map (·.id) := by
          have : n.item ∈ L := by rw [← i2]; exact List.mem_map.2 ⟨n, hn, rfl⟩
          exact List.mem_map.2 ⟨n.item, this, rfl⟩
        simp only [hreg, fset_ne _ _ (hne _ hni)] at h1
        exact ⟨m0, h1, h2⟩
    · intro i hi
      simp only [List.mem_cons, not_or] at hi
      rw [i4 i hi.2]
      simp only [hreg, fset_ne _ _ hi.1]
    · intro i hi
      by_cases hx : i = x.id
      · subst hx
        rw [i4 _ hnd.1]
        simp only [hreg, fset_same, hm, Option.map_some]
      · have hi' : i ∈ L.map (·.id) := by
          rcases List.mem_cons.1 hi with h | h
          · exact absurd h hx
          · exact h
        rw [i5 i hi']
        simp only [hreg, fset_ne _ _ hx]

theorem SR.expireAll (now : Nat) : ∀ (L : List Item) {s : QState} {r : List Item} {fl : List (Nat × Item)}, SR s r fl →
    (L.map (·.id)).Nodup → (∀ x ∈ L, ∃ ts, (ts, x) ∈ fl) →
    SR (QState.expireAll now (L.map (·.id)) s).2 r
      (fl.filter (fun e => e.2.id ∉ L.map (·.id))) ∧
    (QState.expireAll now (L.map (·.id)) s).1.map DlqMsg.dead = L.map (fun x => ⟨x, now, timeoutReason⟩) ∧
    (∀ i, i ∉ L.map (·.id) → mget (QState.expireAll now (L.map (·.id)) s).2.registry i = mget s.registry i) ∧
    (∀ i, i ∈ L.map (·.id) → mget (QState.expireAll now (L.map (·.id)) s).2.registry i = none) := by
  intro L
  induction L with
  | nil =>
    intro s r fl h _ _
    simp only [List.map_nil, QState.expireAll]
    refine ⟨?_, trivial, fun _ _ => trivial, by simp⟩
    have : fl.filter (fun e => decide (e.2.id ∉ ([] : List Nat))) = fl := by simp
    rw [this]; exact h
  | cons x L ih =>
    intro s r fl h hnd hfl
    simp only [List.map_cons, List.nodup_cons] at hnd
    obtain ⟨ts, hts⟩ := hfl x (List.mem_cons_self ..)
    obtain ⟨m, hm, hmi, hms⟩ := RS.cf h _ hts
    simp only at hm hmi hms
    have hid : m.id = x.id := congrArg Item.id hmi
    have hdel := RS.del h hm
    simp only [hms] at hdel
    rw [dropReady_of_not_mem (SR.not_ready h hm hms)] at hdel
    have hone : s.expireOne x.id now = (some (DlqMsg.ofMsg m timeoutReason now),
        { s with registry := mdel s.registry x.id, ackw := bremove s.ackw ts x.id }) := by
      simp only [QState.expireOne, hm, hms]
    have hu : SR { s with registry := mdel s.registry x.id, ackw := bremove s.ackw ts x.id } r (dropFlight x.id fl) := by
      unfold SR; simp only [mget_mdel_fun]; exact hdel
    have hfl' : ∀ y ∈ L, ∃ ts, (ts, y) ∈ dropFlight x.id fl := by
      intro y hy
      obtain ⟨ts', hts'⟩ := hfl y (List.mem_cons_of_mem _ hy)
      refine ⟨ts', List.mem_filter.2 ⟨hts', ?_⟩⟩
      have : y.id ≠ x.id := fun hh => hnd.1 (hh ▸ List.mem_map.2 ⟨y, hy, rfl⟩)
      simpa using this
    obtain ⟨i1, i2, i4, i5⟩ := ih hu hnd.2 hfl'
    simp only [List.map_cons, QState.expireAll, hone, Option.toList_some, List.cons_append, List.nil_append]
    have hne : ∀ i ∈ L.map (·.id), i ≠ x.id := fun i hi hh => hnd.1 (hh ▸ hi)
    refine ⟨?_, ?_, ?_, ?_⟩
    · have : fl.filter (fun e => decide (e.2.id ∉ x.id :: L.map (·.id))) =
          (dropFlight x.id fl).filter (fun e => decide (e.2.id ∉ L.map (·.id))) := by
        unfold dropFlight
        rw [List.filter_filter]
        apply List.filter_congr
        intro e _
        simp only [List.mem_cons, not_or, ne_eq]
        rw [Bool.eq_iff_iff]; simp only [decide_eq_true_eq, Bool.and_eq_true]
        exact And.comm
      rw [this]; exact i1
    · rw [i2, ← hmi]; rfl
    · intro i hi
      simp only [List.mem_cons, not_or] at hi
      rw [i4 i hi.2]
      simp only [mget_mdel_fun, fset_ne _ _ hi.1]
    · intro i hi
      by_cases hx : i = x.id
      · subst hx
        rw [i4 _ hnd.1]
        simp only [mget_mdel_fun, fset_same]
      · have hi' : i ∈ L.map (·.id) := by
          rcases List.mem_cons.1 hi with h | h
          · exact absurd h hx
          · exact h
        rw [i5 i hi']

theorem SR.exhausted {s : QState} {r : List Item} {fl : List (Nat × Item)} (h : SR s r fl) (maxRetries : Nat)
    {e : Nat × Item} (he : e ∈ fl) : s.exhausted maxRetries e.2.id = decide (maxRetries ≤ e.2.attempts) := by
  obtain ⟨m, hm, hmi, _⟩ := RS.cf h e he
  unfold QState.exhausted
  simp only [hm]
  have : m.attempts = e.2.attempts := congrArg Item.attempts hmi
  rw [this]

theorem SR.processExpired {s : QState} {r : List Item} {fl : List (Nat × Item)} {d : List Dead} (h : SR s r fl)
    (maxRetries now : Nat) :
    let p := s.processExpired maxRetries now
    let a := Spec.Queue.expire maxRetries timeoutReason now ⟨r, fl, d⟩
    SR p.2 a.ready a.flight ∧ a.dead = d ++ p.1.2.map DlqMsg.dead ∧
    (∀ m ∈ p.1.1, ∃ m0, mget s.registry m.id = some m0 ∧ m = { m0 with state := .ready, visibleAt := 0 }) ∧
    ((p.1.1.map (·.id) ++ p.1.2.map (·.id)).Nodup) ∧
    (∀ x ∈ p.1.2, ∃ m, mget s.registry x.id = some m ∧ x = DlqMsg.ofMsg m timeoutReason now) ∧
    (∀ i, i ∈ p.1.2.map (·.id) → mget p.2.registry i = none) ∧
    (∀ i, i ∉ p.1.2.map (·.id) → mget p.2.registry i =
      if i ∈ p.1.1.map (·.id) then (mget s.registry i).map (fun m => { m with state := .ready, visibleAt := 0 })
      else mget s.registry i) := by
  let due := fl.filter (fun e => decide (e.1 ≤ now))
  let LR := (due.filter (fun e => decide (e.2.attempts < maxRetries))).map (·.2)
  let LD := (due.filter (fun e => decide (maxRetries ≤ e.2.attempts))).map (·.2)
  have hdue : ∀ e ∈ due, e ∈ fl := fun e he => (List.mem_filter.1 he).1
  have hids := SR.expiredIds h now
  have hR : (s.expiredIds now).filter (fun id => !s.exhausted maxRetries id) = LR.map (·.id) := by
    rw [hids, List.filter_map]
    simp only [LR, List.map_map]
    have : due.filter ((fun id => !s.exhausted maxRetries id) ∘ (fun e => e.2.id)) = due.filter (fun e => decide (e.2.attempts < maxRetries)) := by
      apply List.filter_congr
      intro e he
      simp only [Function.comp, SR.exhausted h maxRetries (hdue e he)]
      by_cases hh : maxRetries ≤ e.2.attempts
      · simp [hh, Nat.not_lt.2 hh]
      · simp [hh, Nat.not_le.1 hh]
    rw [this]; rfl
  have hD : (s.expiredIds now).filter (s.exhausted maxRetries) = LD.map (·.id) := by
    rw [hids, List.filter_map]
    simp only [LD, List.map_map]
    have : due.filter ((s.exhausted maxRetries) ∘ (fun e => e.2.id)) = due.filter (fun e => decide (maxRetries ≤ e.2.attempts)) := by
      apply List.filter_congr
      intro e he
      simp only [Function.comp, SR.exhausted h maxRetries (hdue e he)]
    rw [this]; rfl
  have nd : ∀ (p q : Nat × Item → Bool), (((fl.filter p).filter q).map (fun e => e.2.id)).Nodup := by
    intro p q
    exact (((List.filter_sublist.trans List.filter_sublist).map _).nodup (RS.ndf h))
  have hLRn : (LR.map (·.id)).Nodup := by
    have := nd (fun e => decide (e.1 ≤ now)) (fun e => decide (e.2.attempts < maxRetries))
    simp only [LR, due, List.map_map]; exact this
  have hLDn : (LD.map (·.id)).Nodup := by
    have := nd (fun e => decide (e.1 ≤ now)) (fun e => decide (maxRetries ≤ e.2.attempts))
    simp only [LD, due, List.map_map]; exact this
  have uniq : ∀ e ∈ fl, ∀ e' ∈ fl, e.2.id = e'.2.id → e = e' := by
    intro e he e' he' hh
    have h1 := find_of_nodup (k := fun e : Nat × Item => e.2.id) (RS.ndf h) he
    have h2 := find_of_nodup (k := fun e : Nat × Item => e.2.id) (RS.ndf h) he'
    simp only [hh] at h1
    exact Option.some.inj (h1.symm.trans h2)
  have hLR : ∀ x ∈ LR, ∃ ts, (ts, x) ∈ fl := by
    intro x hx
    obtain ⟨e, he, rfl⟩ := List.mem_map.1 hx
    exact ⟨e.1, hdue e (List.mem_filter.1 he).1⟩
  have memLR : ∀ e ∈ fl, e.2.id ∈ LR.map (·.id) ↔ (e.1 ≤ now ∧ e.2.attempts < maxRetries) := by
    intro e he
    constructor
    · intro hm
      obtain ⟨x, hx, hxi⟩ := List.mem_map.1 hm
      obtain ⟨e', he', rfl⟩ := List.mem_map.1 hx
      obtain ⟨h1, h2⟩ := List.mem_filter.1 he'
      have := uniq e' (hdue e' h1) e he hxi
      subst this
      exact ⟨by simpa using (List.mem_filter.1 h1).2, by simpa using h2⟩
    · intro ⟨h1, h2⟩
      exact List.mem_map.2 ⟨e.2, List.mem_map.2 ⟨e, List.mem_filter.2 ⟨List.mem_filter.2 ⟨he, by simpa using h1⟩, by simpa using h2⟩, rfl⟩, rfl⟩
  have memLD : ∀ e ∈ fl, e.2.id ∈ LD.map (·.id) ↔ (e.1 ≤ now ∧ maxRetries ≤ e.2.attempts) := by
    intro e he
    constructor
    · intro hm
      obtain ⟨x, hx, hxi⟩ := List.mem_map.1 hm
      obtain ⟨e', he', rfl⟩ := List.mem_map.1 hx
      obtain ⟨h1, h2⟩ := List.mem_filter.1 he'
      have := uniq e' (hdue e' h1) e he hxi
      subst this
      exact ⟨by simpa using (List.mem_filter.1 h1).2, by simpa using h2⟩
    · intro ⟨h1, h2⟩
      exact List.mem_map.2 ⟨e.2, List.mem_map.2 ⟨e, List.mem_filter.2 ⟨List.mem_filter.2 ⟨he, by simpa using h1⟩, by simpa using h2⟩, rfl⟩, rfl⟩
  have disj : ∀ i ∈ LD.map (·.id), i ∉ LR.map (·.id) := by
    intro i hi hi'
    obtain ⟨x, hx, rfl⟩ := List.mem_map.1 hi
    obtain ⟨e, he, rfl⟩ := List.mem_map.1 hx
    have hef := hdue e (List.mem_filter.1 he).1
    have h1 := (memLD e hef).1 hi
    have h2 := (memLR e hef).1 hi'
    omega
  obtain ⟨a1, a2, a3, a4, a5⟩ := SR.requeueAll LR h hLRn hLR
  have hLD : ∀ x ∈ LD, ∃ ts, (ts, x) ∈ fl.filter (fun e => decide (e.2.id ∉ LR.map (·.id))) := by
    intro x hx
    have hd := disj x.id (List.mem_map.2 ⟨x, hx, rfl⟩)
    obtain ⟨e, he, rfl⟩ := List.mem_map.1 hx
    exact ⟨e.1, List.mem_filter.2 ⟨hdue e (List.mem_filter.1 he).1, by simpa using hd⟩⟩
  obtain ⟨b1, b2, b3, b4⟩ := SR.expireAll now LD a1 hLDn hLD
  have hids1 : (QState.requeueAll (LR.map (·.id)) s).1.map (·.id) = LR.map (·.id) := by
    have h0 := congrArg (List.map Item.id) a2
    have h1 : ∀ l : List Msg, (l.map Msg.item).map Item.id = l.map (·.id) := by
      intro l; rw [List.map_map]; rfl
    rw [h1] at h0; exact h0
  have hids2 : (QState.expireAll now (LD.map (·.id)) (QState.requeueAll (LR.map (·.id)) s).2).1.map (·.id) = LD.map (·.id) := by
    have h0 := congrArg (List.map (fun d : Dead => d.item.id)) b2
    have h1 : ∀ l : List DlqMsg, (l.map DlqMsg.dead).map (fun d : Dead => d.item.id) = l.map (·.id) := by
      intro l; rw [List.map_map]; rfl
    have h2 : ∀ l : List Item, (l.map (fun x => (⟨x, now, timeoutReason⟩ : Dead))).map (fun d : Dead => d.item.id) = l.map (·.id) := by
      intro l; rw [List.map_map]; rfl
    rw [h1, h2] at h0; exact h0
  simp only [QState.processExpired, hR, hD, Spec.Queue.expire]
  have e1 : (List.filter (fun x : Item => decide (x.attempts < maxRetries)) (due.map (·.2))) = LR := by
    simp only [LR, List.filter_map]; rfl
  have e2 : (List.filter (fun x : Item => decide (maxRetries ≤ x.attempts)) (due.map (·.2))) = LD := by
    simp only [LD, List.filter_map]; rfl
  refine ⟨?_, ?_, a3, ?_, ?_, ?_, ?_⟩
  · rw [e1]
    have : fl.filter (fun e => decide (now < e.1)) =
        (fl.filter (fun e => decide (e.2.id ∉ LR.map (·.id)))).filter (fun e => decide (e.2.id ∉ LD.map (·.id))) := by
      rw [List.filter_filter]
      apply List.filter_congr
      intro e he
      rw [Bool.eq_iff_iff]; simp only [decide_eq_true_eq, Bool.and_eq_true]
      rw [memLD e he, memLR e he]
      omega
    rw [this]; exact b1
  · rw [e2, b2]
  · rw [hids1, hids2]; exact List.nodup_append.2 ⟨hLRn, hLDn, fun i hi j hj hij => disj j hj (hij ▸ hi)⟩
  · intro x hx
    have hxd : x.dead ∈ LD.map (fun x => (⟨x, now, timeoutReason⟩ : Dead)) := by
      rw [← b2]; exact List.mem_map.2 ⟨x, hx, rfl⟩
    obtain ⟨y, hy, hyx⟩ := List.mem_map.1 hxd
    obtain ⟨e, he, rfl⟩ := List.mem_map.1 hy
    obtain ⟨m, hm, hmi, _⟩ := RS.cf h e (hdue e (List.mem_filter.1 he).1)
    have hxi : x.id = e.2.id := by
      have := congrArg (fun d : Dead => d.item.id) hyx
      exact this.symm
    refine ⟨m, by rw [hxi]; exact hm, ?_⟩
    rw [← hmi] at hyx
    cases x
    simp only [DlqMsg.dead, Msg.item, Dead.mk.injEq, Item.mk.injEq] at hyx
    simp only [DlqMsg.ofMsg]
    obtain ⟨⟨h1, h2, h3, h4, h5⟩, h6, h7⟩ := hyx
    subst h1 h2 h3 h4 h5 h6 h7; rfl
  · rw [hids2]; exact b4
  · rw [hids2, hids1]
    intro i hi
    rw [b3 i hi]
    split
    · next h => exact a5 i h
    · next h => exact a4 i h

/-! ## The whole queue -/

open Spec.Queue (Req Ans)

/-- The model state represents the specification state; `used` contains every id present. -/
structure RQ (q : QInner) (a : Q) (used : Id → Prop) : Prop where
  st : SR q.state a.ready a.flight
  dead : q.dlq.map (·.2.dead) = a.dead
  dkey : ∀ e ∈ q.dlq, e.1 = e.2.id
  dwf : MWF q.dlq
  disj : ∀ id ∈ mkeys q.dlq, mget q.state.registry id = none
  usedR : ∀ id, mget q.state.registry id ≠ none → used id
  usedD : ∀ id ∈ mkeys q.dlq, used id

theorem RQ.init (cfg : Config) (used : Id → Prop) : RQ (QInner.empty cfg) .empty used := by
  refine ⟨SR.init, rfl, ?_, MWF.nil, ?_, ?_, ?_⟩
  · intro e he; simp [QInner.empty] at he
  · intro e he; simp [QInner.empty, mkeys] at he
  · intro id h; simp [QInner.empty, QState.new] at h
  · intro id h; simp [QInner.empty, mkeys] at h

end Verif.Queue
