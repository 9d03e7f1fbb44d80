import Verif.Model.QueueStore
import Verif.Spec.QueueObs
import Verif.Proofs.QueueStep
import Verif.Proofs.QueueSpec

/-!
# The database follows the queue
-/

namespace Verif.Queue

open Spec.Queue (Item Dead Q lineUp file dropReady dropFlight Req Ans)

theorem SR.pushFlight {s : QState} {r : List Item} {fl : List (Nat × Item)} (h : SR s r fl) {m : Msg} {ts : Nat}
    (hn : mget s.registry m.id = none) (hs : m.state = .inFlight ts) :
    SR (s.push m) r (file ts m.item fl) ∧
      mget (s.push m).registry = fset (mget s.registry) m.id (some m) := by
  have := RS.insFlight h hn hs
  unfold QState.push SR
  simp only [hs, mget_mset_fun]
  exact ⟨this, trivial⟩

/-! ## Recovery -/

/-- What the specification says a recovered queue is: the rows in table order, the in-flight ones filed
by their timeout, the others lined up. -/
def recoveredR (now : Nat) (rows : List (Id × Row)) (r : List Item) : List Item :=
  rows.foldl (fun l e => if (loadRow now e.1 e.2).state = .ready then lineUp (loadRow now e.1 e.2).item l else l) r

def recoveredF (now : Nat) (rows : List (Id × Row)) (fl : List (Nat × Item)) : List (Nat × Item) :=
  rows.foldl (fun l e => if (loadRow now e.1 e.2).state = .ready then l else file e.2.visibleAt (loadRow now e.1 e.2).item l) fl

theorem loadRow_cases (now : Nat) (id : Id) (r : Row) :
    (loadRow now id r).state = .ready ∨ (loadRow now id r).state = .inFlight r.visibleAt := by
  unfold loadRow; simp only; split <;> simp

theorem recover_state (now : Nat) : ∀ (rows : List (Id × Row)) {s : QState} {r : List Item} {fl : List (Nat × Item)},
    SR s r fl → MWF rows → (∀ id ∈ mkeys rows, mget s.registry id = none) →
    SR (rows.foldl (fun s e => s.push (loadRow now e.1 e.2)) s) (recoveredR now rows r) (recoveredF now rows fl) ∧
    ∀ id, mget (rows.foldl (fun s e => s.push (loadRow now e.1 e.2)) s).registry id =
      ((mget rows id).map (loadRow now id)).or (mget s.registry id) := by
  intro rows
  induction rows with
  | nil => intro s r fl h _ _; exact ⟨h, by simp⟩
  | cons e t ih =>
    intro s r fl h hw hn
    have hw' : MWF t := (List.nodup_cons.1 hw).2
    have het : e.1 ∉ mkeys t := (List.nodup_cons.1 hw).1
    have hne : mget s.registry (loadRow now e.1 e.2).id = none := hn _ (List.mem_cons_self ..)
    have hreg : ∀ s', mget s'.registry = fset (mget s.registry) (loadRow now e.1 e.2).id (some (loadRow now e.1 e.2)) →
        (∀ id ∈ mkeys t, mget (s' : QState).registry id = none) := by
      intro s' hs' id hid
      have : id ≠ (loadRow now e.1 e.2).id := fun hh => het (by rw [hh] at hid; exact hid)
      rw [hs', fset_ne _ _ this]; exact hn id (List.mem_cons_of_mem _ hid)
    have hfin : ∀ s' : QState, mget s'.registry = fset (mget s.registry) (loadRow now e.1 e.2).id (some (loadRow now e.1 e.2)) →
        ∀ id, ((mget t id).map (loadRow now id)).or (mget s'.registry id) =
          ((mget (e :: t) id).map (loadRow now id)).or (mget s.registry id) := by
      intro s' hs' id
      rw [hs', mget_cons]
      by_cases hid : e.1 = id
      · have : mget t id = none := by rw [mget_eq_none, ← hid]; exact het
        subst hid
        simp only [this, if_true, Option.map_some, Option.map_none, Option.none_or, Option.some_or]
        exact fset_same _ _ _
      · have : id ≠ (loadRow now e.1 e.2).id := fun hh => hid hh.symm
        rw [if_neg hid, fset_ne _ _ this]
    simp only [List.foldl_cons, recoveredR, recoveredF]
    rcases loadRow_cases now e.1 e.2 with hc | hc
    · obtain ⟨p1, p2⟩ := SR.push h hne hc
      obtain ⟨i1, i2⟩ := ih p1 hw' (hreg _ p2)
      simp only [hc, if_true]
      exact ⟨i1, fun id => by rw [i2 id, hfin _ p2 id]⟩
    · obtain ⟨p1, p2⟩ := SR.pushFlight h hne hc
      obtain ⟨i1, i2⟩ := ih p1 hw' (hreg _ p2)
      simp only [hc, reduceCtorEq, if_false]
      exact ⟨i1, fun id => by rw [i2 id, hfin _ p2 id]⟩

/-- Invariant of the database: no id twice, in particular not in both tables. -/
structure DBI (db : DB) (used : Id → Prop) : Prop where
  wm : MWF db.main
  wd : MWF db.dlq
  key : ∀ e ∈ db.dlq, e.1 = e.2.id
  disj : ∀ id ∈ mkeys db.dlq, id ∉ mkeys db.main
  um : ∀ id ∈ mkeys db.main, used id
  ud : ∀ id ∈ mkeys db.dlq, used id

theorem dlq_rebuild (l : List (Id × DlqMsg)) (hk : ∀ e ∈ l, e.1 = e.2.id) (hw : MWF l) :
    l.foldl (fun d e => dlqPush d e.2) [] = l := by
  have h1 : l.foldl (fun d e => dlqPush d e.2) [] = (l.map (·.2)).foldl dlqPush [] := by
    rw [List.foldl_map]
  have hid : l.map (fun e => e.2.id) = l.map (·.1) := List.map_congr_left (fun e he => (hk e he).symm)
  have h2 := dlqPushAll_spec (l.map (·.2)) (d := []) (by simp) MWF.nil (by simp [mkeys]) (by
    rw [List.map_map]; rw [show (DlqMsg.id ∘ fun x : Id × DlqMsg => x.2) = (fun e => e.2.id) from rfl, hid]; exact hw)
  rw [h1, h2.1, List.nil_append, List.map_map]
  conv => rhs; rw [← List.map_id l]
  apply List.map_congr_left
  intro e he
  simp only [Function.comp, id, ← hk e he]

/-- What a recovered queue is for the specification. -/
def recovered (now : Nat) (db : DB) : Q :=
  { ready := recoveredR now db.main [], flight := recoveredF now db.main [], dead := db.dlq.map (·.2.dead) }

theorem RQ.recover {db : DB} {used : Id → Prop} (h : DBI db used) (cfg : Config) (now : Nat) :
    RQ (recover cfg now db) (recovered now db) used ∧
    (recover cfg now db).dlq = db.dlq ∧
    ∀ id, mget (Verif.Queue.recover cfg now db).state.registry id = (mget db.main id).map (loadRow now id) := by
  obtain ⟨h1, h2⟩ := recover_state now db.main SR.init h.wm (by intro id _; rfl)
  have h3 := dlq_rebuild db.dlq h.key h.wd
  have h2' : ∀ id, mget (Verif.Queue.recover cfg now db).state.registry id = (mget db.main id).map (loadRow now id) := by
    intro id
    have := h2 id
    simp only [QState.new, mget_nil, Option.or_none] at this
    exact this
  refine ⟨⟨h1, ?_, ?_, ?_, ?_, ?_, ?_⟩, h3, h2'⟩
  · simp only [Verif.Queue.recover, h3, recovered]
  · simp only [Verif.Queue.recover, h3]; exact h.key
  · simp only [Verif.Queue.recover, h3]; exact h.wd
  · intro id hid
    simp only [Verif.Queue.recover, h3] at hid
    have hn := mget_eq_none.2 (h.disj id hid)
    rw [h2' id, hn]; rfl
  · intro id hid
    apply h.um
    rw [← mget_isSome]
    rw [h2' id] at hid
    cases hg : mget db.main id with
    | none => rw [hg] at hid; exact absurd rfl hid
    | some r => rfl
  · intro id hid
    simp only [Verif.Queue.recover, h3] at hid
    exact h.ud id hid

/-! ## The storage operations of a request -/

/-- Main table and registry agree. -/
structure MR (f : Id → Option Msg) (main : List (Id × Row)) : Prop where
  wf : MWF main
  eq : ∀ id, mget main id = (f id).map Msg.row

/-- Database and queue agree. -/
structure DBR (q : QInner) (db : DB) : Prop where
  main : MR (mget q.state.registry) db.main
  dlq : db.dlq = q.dlq

/-- The operation does what it is meant to do: no insert hits an existing key. -/
def Pre (db : DB) : StorageOp → Prop
  | .insert m => m.id ∉ mkeys db.main ∧ m.id ∉ mkeys db.dlq
  | .moveToDlq id m => m.id = id ∧ id ∈ mkeys db.main ∧ id ∉ mkeys db.dlq
  | .moveToMain id m => m.id = id ∧ id ∈ mkeys db.dlq ∧ id ∉ mkeys db.main
  | .insertDlq _ => False
  | _ => True

/-- The id an operation introduces. -/
def StorageOp.newId : StorageOp → List Id
  | .insert m => [m.id]
  | _ => []

/-- All operations do what they are meant to do, one after the other. -/
def Safe (used : Id → Prop) : DB → List StorageOp → Prop
  | _, [] => True
  | db, op :: t => Pre db op ∧ (∀ id ∈ op.newId, used id) ∧ Safe used (execOp db op) t

theorem Safe.append {used : Id → Prop} : ∀ (l l' : List StorageOp) {db : DB},
    Safe used db (l ++ l') ↔ Safe used db l ∧ Safe used (execAll db l) l' := by
  intro l l'
  induction l with
  | nil => intro db; simp [Safe, execAll]
  | cons op t ih => intro db; simp only [List.cons_append, Safe, ih, execAll, List.foldl_cons, and_assoc]

theorem execAll_append (db : DB) (l l' : List StorageOp) : execAll db (l ++ l') = execAll (execAll db l) l' := by
  simp [execAll]

theorem Safe.mono {used used' : Id → Prop} (hu : ∀ i, used i → used' i) : ∀ (l : List StorageOp) {db : DB},
    Safe used db l → Safe used' db l := by
  intro l
  induction l with
  | nil => intro db _; trivial
  | cons op t ih => intro db h; exact ⟨h.1, fun id hid => hu id (h.2.1 id hid), ih h.2.2⟩

theorem mkeys_insertRow {V : Type} {t : List (Id × V)} {id : Id} {v : V} (h : id ∉ mkeys t) :
    insertRow t id v = t ++ [(id, v)] := by
  have : mhas t id = false := by
    cases hh : mhas t id with
    | false => rfl
    | true => exact absurd (mhas_iff.1 hh) h
  simp [insertRow, this]

theorem insertRow_eq_mset {V : Type} {t : List (Id × V)} {id : Id} {v : V} (h : id ∉ mkeys t) :
    insertRow t id v = mset t id v := by
  rw [mkeys_insertRow h, mset_of_not_mem v h]

/-- The invariant of the database is kept by operations that do what they are meant to. -/
theorem DBI.exec {db : DB} {used : Id → Prop} (h : DBI db used) {op : StorageOp} (hp : Pre db op)
    (hu : ∀ id ∈ op.newId, used id) : DBI (execOp db op) used := by
  obtain ⟨wm, wd, key, disj, um, ud⟩ := h
  cases op with
  | insert m =>
    simp only [execOp, insertRow_eq_mset hp.1]
    refine ⟨wm.mset _ _, wd, key, ?_, ?_, ud⟩
    · intro id hid hm
      rcases mem_mkeys_mset.1 hm with rfl | hm
      · exact hp.2 hid
      · exact disj id hid hm
    · intro id hid
      rcases mem_mkeys_mset.1 hid with rfl | hm
      · exact hu _ (by simp [StorageOp.newId])
      · exact um id hm
  | delete id =>
    refine ⟨wm.mdel _, wd, key, ?_, ?_, ud⟩
    · intro i hi hm; exact disj i hi (mem_mkeys_mdel.1 hm).2
    · intro i hi; exact um i (mem_mkeys_mdel.1 hi).2
  | updateState id v a =>
    refine ⟨by simp only [execOp]; exact MWF.mupd wm _ _, wd, key, ?_, ?_, ud⟩
    · intro i hi hm; simp only [execOp, mkeys_mupd] at hm; exact disj i hi hm
    · intro i hi; simp only [execOp, mkeys_mupd] at hi; exact um i hi
  | insertDlq m => exact absurd hp id
  | deleteDlq id =>
    refine ⟨wm, wd.mdel _, ?_, ?_, um, ?_⟩
    · intro e he; exact key e (List.mem_filter.1 he).1
    · intro i hi; exact disj i (mem_mkeys_mdel.1 hi).2
    · intro i hi; exact ud i (mem_mkeys_mdel.1 hi).2
  | moveToDlq id m =>
    obtain ⟨h1, h2, h3⟩ := hp
    subst h1
    simp only [execOp, insertRow_eq_mset h3]
    refine ⟨wm.mdel _, wd.mset _ _, ?_, ?_, ?_, ?_⟩
    · intro e he
      simp only at he
      rw [mset_of_not_mem _ h3] at he
      rcases List.mem_append.1 he with he | he
      · exact key e he
      · simp at he; subst he; rfl
    · intro i hi hm
      have hm' := mem_mkeys_mdel.1 hm
      rcases mem_mkeys_mset.1 hi with rfl | hi
      · exact hm'.1 rfl
      · exact disj i hi hm'.2
    · intro i hi; exact um i (mem_mkeys_mdel.1 hi).2
    · intro i hi
      rcases mem_mkeys_mset.1 hi with rfl | hi
      · exact um _ h2
      · exact ud i hi
  | moveToMain id m =>
    obtain ⟨h1, h2, h3⟩ := hp
    subst h1
    simp only [execOp, insertRow_eq_mset h3]
    refine ⟨wm.mset _ _, wd.mdel _, ?_, ?_, ?_, ?_⟩
    · intro e he; exact key e (List.mem_filter.1 he).1
    · intro i hi hm
      have hi' := mem_mkeys_mdel.1 hi
      rcases mem_mkeys_mset.1 hm with rfl | hm
      · exact hi'.1 rfl
      · exact disj i hi'.2 hm
    · intro i hi
      rcases mem_mkeys_mset.1 hi with rfl | hi
      · exact ud _ h2
      · exact um i hi
    · intro i hi; exact ud i (mem_mkeys_mdel.1 hi).2
  | purgeDlq =>
    exact ⟨wm, MWF.nil, by simp [execOp], by simp [execOp, mkeys], um, by simp [execOp, mkeys]⟩

theorem DBI.execAll {used : Id → Prop} : ∀ (l : List StorageOp) {db : DB}, DBI db used → Safe used db l →
    DBI (execAll db l) used := by
  intro l
  induction l with
  | nil => intro db h _; exact h
  | cons op t ih => intro db h hs; exact ih (h.exec hs.1 hs.2.1) hs.2.2

theorem DBI.mono {db : DB} {used used' : Id → Prop} (h : DBI db used) (hu : ∀ i, used i → used' i) : DBI db used' :=
  ⟨h.wm, h.wd, h.key, h.disj, fun i hi => hu i (h.um i hi), fun i hi => hu i (h.ud i hi)⟩

theorem MR.congr {f f' : Id → Option Msg} {main : List (Id × Row)} (h : MR f main) (hf : ∀ i, f i = f' i) : MR f' main :=
  ⟨h.wf, fun i => by rw [h.eq i, hf i]⟩

theorem MR.upd {f : Id → Option Msg} {main : List (Id × Row)} (h : MR f main) {m m0 : Msg}
    (h0 : f m.id = some m0) (hr : m.row = { m0.row with visibleAt := m.visibleAt, attempts := m.attempts }) :
    MR (fset f m.id (some m)) (mupd main m.id (fun r => { r with visibleAt := m.visibleAt, attempts := m.attempts })) := by
  refine ⟨h.wf.mupd _ _, ?_⟩
  intro i
  rw [mget_mupd]
  by_cases hi : i = m.id
  · subst hi; simp only [if_true, fset_same, h.eq, h0, Option.map_some, hr]
  · rw [if_neg hi, fset_ne _ _ hi, h.eq]

theorem MR.del {f : Id → Option Msg} {main : List (Id × Row)} (h : MR f main) (id : Id) :
    MR (fset f id none) (mdel main id) := by
  refine ⟨h.wf.mdel _, ?_⟩
  intro i
  rw [mget_mdel]
  by_cases hi : i = id
  · subst hi; simp
  · rw [if_neg hi, fset_ne _ _ hi, h.eq]

theorem MR.ins {f : Id → Option Msg} {main : List (Id × Row)} (h : MR f main) {m : Msg} (hn : f m.id = none) :
    m.id ∉ mkeys main ∧ MR (fset f m.id (some m)) (insertRow main m.id m.row) := by
  have hk : m.id ∉ mkeys main := by rw [← mget_eq_none, h.eq, hn]; rfl
  refine ⟨hk, ?_⟩
  rw [insertRow_eq_mset hk]
  refine ⟨h.wf.mset _ _, ?_⟩
  intro i
  rw [mget_mset]
  by_cases hi : i = m.id
  · subst hi; simp
  · rw [if_neg hi, fset_ne _ _ hi, h.eq]

theorem MR.mem {f : Id → Option Msg} {main : List (Id × Row)} (h : MR f main) (id : Id) :
    id ∈ mkeys main ↔ f id ≠ none := by
  rw [← mget_isSome, h.eq]
  cases f id <;> simp

def upd (m : Msg) : StorageOp := .updateState m.id m.visibleAt m.attempts

theorem takeBatch_db (used : Id → Prop) (now vt : Nat) (d : List Dead) : ∀ (n : Nat) {s : QState} {r : List Item} {fl : List (Nat × Item)} {db : DB},
    SR s r fl → MR (mget s.registry) db.main →
    Safe used db ((s.takeBatch now vt n).1.map upd) ∧
    MR (mget (s.takeBatch now vt n).2.2.registry) (execAll db ((s.takeBatch now vt n).1.map upd)).main ∧
    (execAll db ((s.takeBatch now vt n).1.map upd)).dlq = db.dlq := by
  intro n
  induction n with
  | zero => intro s r fl db _ h; exact ⟨trivial, h, rfl⟩
  | succ n ih =>
    intro s r fl db hs h
    have hp := SR.popSingle (d := d) hs now vt
    simp only at hp
    obtain ⟨h1, h2, h3, h4, h5⟩ := hp
    simp only [QState.takeBatch]
    rcases hps : s.popSingle now vt with ⟨o, b, s'⟩
    rw [hps] at h1 h4 h5
    cases o with
    | none =>
      have := h5 rfl; simp only at this; subst this
      exact ⟨trivial, h, rfl⟩
    | some m =>
      obtain ⟨h6, m0, h7, _, h8⟩ := h4 m rfl
      simp only at h6
      have hu := h.upd (m := m) h7 (by rw [h8]; rfl)
      rw [← h6] at hu
      obtain ⟨i1, i2, i3⟩ := ih (db := execOp db (upd m)) h1 hu
      refine ⟨⟨trivial, by simp [upd, StorageOp.newId], i1⟩, i2, ?_⟩
      exact i3

theorem requeue_db (used : Id → Prop) : ∀ (U : List Msg) {f : Id → Option Msg} {db : DB}, MR f db.main →
    (∀ m ∈ U, ∃ m0, f m.id = some m0 ∧ m = { m0 with state := .ready, visibleAt := 0 }) →
    Safe used db (U.map (fun m => .updateState m.id 0 m.attempts)) ∧
    MR (fun i => if i ∈ U.map (·.id) then (f i).map (fun m => { m with state := .ready, visibleAt := 0 }) else f i)
      (execAll db (U.map (fun m => .updateState m.id 0 m.attempts))).main ∧
    (execAll db (U.map (fun m => .updateState m.id 0 m.attempts))).dlq = db.dlq := by
  intro U
  induction U with
  | nil => intro f db h _; exact ⟨trivial, h.congr (by simp), rfl⟩
  | cons m U ih =>
    intro f db h hU
    obtain ⟨m0, h0, hm⟩ := hU m (List.mem_cons_self ..)
    have hu := h.upd (m := m) h0 (by rw [hm]; rfl)
    have hv : m.visibleAt = 0 := by rw [hm]
    obtain ⟨i1, i2, i3⟩ := ih (db := execOp db (.updateState m.id 0 m.attempts)) (f := fset f m.id (some m)) (by
      rw [hv] at hu; exact hu) (by
      intro x hx
      by_cases hi : x.id = m.id
      · obtain ⟨x0, hx0, hxx⟩ := hU x (List.mem_cons_of_mem _ hx)
        rw [hi, h0] at hx0
        cases hx0
        refine ⟨m, by rw [hi, fset_same], ?_⟩
        rw [hxx, hm]
      · rw [fset_ne _ _ hi]; exact hU x (List.mem_cons_of_mem _ hx))
    refine ⟨⟨trivial, by simp [StorageOp.newId], i1⟩, ?_, i3⟩
    refine MR.congr i2 ?_
    intro i
    by_cases hi : i = m.id
    · subst hi
      simp only [fset_same, List.map_cons, List.mem_cons, true_or, if_true, h0, Option.map_some]
      split
      · rw [hm]
      · rw [hm]
    · simp only [fset_ne _ _ hi, List.map_cons, List.mem_cons, hi, false_or]

theorem expire_db (used : Id → Prop) : ∀ (D : List DlqMsg) {f : Id → Option Msg} {db : DB}, MR f db.main →
    (∀ e ∈ db.dlq, e.1 = e.2.id) → MWF db.dlq →
    (D.map (·.id)).Nodup → (∀ d ∈ D, f d.id ≠ none) → (∀ d ∈ D, d.id ∉ mkeys db.dlq) →
    Safe used db (D.map (fun d => .moveToDlq d.id d)) ∧
    MR (fun i => if i ∈ D.map (·.id) then none else f i) (execAll db (D.map (fun d => .moveToDlq d.id d))).main ∧
    (execAll db (D.map (fun d => .moveToDlq d.id d))).dlq = D.foldl dlqPush db.dlq := by
  intro D
  induction D with
  | nil => intro f db h _ _ _ _ _; exact ⟨trivial, h.congr (by simp), rfl⟩
  | cons m D ih =>
    intro f db h hk hw hnd hf hd
    simp only [List.map_cons, List.nodup_cons] at hnd
    have hmk := hd m (List.mem_cons_self ..)
    have hdel := h.del m.id
    obtain ⟨p1, p2, p3⟩ := dlqPush_spec hk hw hmk
    have hdlq : (execOp db (.moveToDlq m.id m)).dlq = dlqPush db.dlq m := by
      simp only [execOp, insertRow_eq_mset hmk]; rfl
    obtain ⟨i1, i2, i3⟩ := ih (db := execOp db (.moveToDlq m.id m)) (f := fset f m.id none) hdel (by rw [hdlq]; exact p2)
      (by rw [hdlq]; exact p3) hnd.2 (by
        intro x hx
        have : x.id ≠ m.id := fun hh => hnd.1 (hh ▸ List.mem_map.2 ⟨x, hx, rfl⟩)
        rw [fset_ne _ _ this]; exact hf x (List.mem_cons_of_mem _ hx)) (by
        intro x hx hk'
        rw [hdlq] at hk'
        rcases mem_mkeys_mset.1 hk' with hh | hh
        · exact hnd.1 (hh ▸ List.mem_map.2 ⟨x, hx, rfl⟩)
        · exact hd x (List.mem_cons_of_mem _ hx) hh)
    refine ⟨⟨⟨rfl, (h.mem _).2 (hf m (List.mem_cons_self ..)), hmk⟩, by simp [StorageOp.newId], i1⟩, ?_, ?_⟩
    · refine MR.congr i2 ?_
      intro i
      by_cases hi : i = m.id
      · subst hi; simp
      · simp only [fset_ne _ _ hi, List.map_cons, List.mem_cons, hi, false_or]
    · rw [List.foldl_cons, ← hdlq]; exact i3

/-- One request: its storage operations turn a database that agrees with the queue before into one that
agrees with the queue after. -/
theorem DBR.step {q : QInner} {a : Q} {used used' : Id → Prop} (h : RQ q a used) {db : DB} (hr : DBR q db)
    (op : Op) (hok : op.ok) (hf : ∀ id ∈ op.pushId, ¬ used id) (hu : ∀ id ∈ op.pushId, used' id) :
    Safe used' db (step q op).2.2 ∧ DBR (Verif.Queue.step q op).1 (execAll db (Verif.Queue.step q op).2.2) := by
  obtain ⟨st, dead, dkey, dwf, disj, usedR, usedD⟩ := h
  obtain ⟨hm, hd⟩ := hr
  have triv : ∀ {q'}, q' = q → Safe used' db [] ∧ DBR q' (execAll db []) := by
    intro q' hq; subst hq; exact ⟨trivial, hm, hd⟩
  cases op with
  | push id payload priority now =>
    have hnu : ¬ used id := hf id (by simp [Op.pushId])
    have hn : mget q.state.registry id = none := by
      cases hg : mget q.state.registry id with
      | none => rfl
      | some m => exact absurd (usedR id (by simp [hg])) hnu
    have hp := SR.push st (m := Msg.new id payload priority now) hn rfl
    obtain ⟨i1, i2⟩ := hm.ins (m := Msg.new id payload priority now) hn
    refine ⟨⟨⟨i1, ?_⟩, ?_, trivial⟩, ?_, hd⟩
    · rw [hd]; intro hk; exact hnu (usedD _ hk)
    · intro i hi; exact hu i (by simpa [StorageOp.newId, Msg.new, Op.pushId] using hi)
    · simp only [Verif.Queue.step, hp.2]; exact i2
  | pop now =>
    have hp := SR.popSingle (d := a.dead) st now q.cfg.visibilityTimeout
    simp only at hp
    obtain ⟨h1, h2, h3, h4, h5⟩ := hp
    rcases hps : q.state.popSingle now q.cfg.visibilityTimeout with ⟨o, b, s'⟩
    rw [hps] at h1 h2 h4 h5
    cases o with
    | none =>
      have := h5 rfl; simp only at this; subst this
      simp only [Verif.Queue.step, hps]
      exact ⟨trivial, hm, hd⟩
    | some m =>
      obtain ⟨h6, m0, h7, _, h8⟩ := h4 m rfl
      simp only at h6
      have hu' := hm.upd (m := m) h7 (by rw [h8]; rfl)
      rw [← h6] at hu'
      simp only [Verif.Queue.step, hps]
      exact ⟨⟨trivial, by simp [StorageOp.newId], trivial⟩, hu', hd⟩
  | consume max now =>
    have hok' : ¬ (max * msgSize > isizeMax) := Nat.not_lt.2 hok
    simp only [Verif.Queue.step, hok', if_false]
    obtain ⟨i1, i2, i3⟩ := takeBatch_db used' now q.cfg.visibilityTimeout [] max st hm
    exact ⟨i1, i2, i3.trans hd⟩
  | ack id =>
    obtain ⟨h1, _, h3, h4⟩ := SR.ack (d := a.dead) st id
    have hdel := hm.del id
    rw [← h3] at hdel
    simp only [Verif.Queue.step]
    cases hb : (q.state.ack id).1 with
    | true => exact ⟨⟨trivial, by simp [StorageOp.newId], trivial⟩, hdel, hd⟩
    | false =>
      simp only [Bool.false_eq_true, if_false]
      refine ⟨trivial, MR.congr hm ?_, hd⟩
      intro i
      rw [h3]
      by_cases hi : i = id
      · subst hi
        rw [hb] at h4
        rw [fset_same]
        cases hg : mget q.state.registry i with
        | none => rfl
        | some m => rw [hg] at h4; cases h4
      · rw [fset_ne _ _ hi]
  | nack id reason now =>
    have hp := SR.nack (d := a.dead) st id reason q.cfg.maxRetries now
    simp only at hp
    obtain ⟨h1, h2⟩ := hp
    rcases hn : q.state.nack id reason q.cfg.maxRetries now with ⟨o, s'⟩
    rw [hn] at h1 h2
    cases hg : mget q.state.registry id with
    | none =>
      rw [hg] at h2
      obtain ⟨h3, h4, _⟩ := h2
      simp only at h3 h4
      subst h3 h4
      simp only [Verif.Queue.step, hn]
      exact ⟨trivial, hm, hd⟩
    | some m =>
      have hmid : m.id = id := (RS.comp st id m hg).1
      rw [hg] at h2
      obtain ⟨_, h2⟩ := h2
      simp only at h2
      split at h2
      · obtain ⟨h3, h6, h7⟩ := h2
        subst h3
        simp only [Verif.Queue.step, hn]
        have hnk : (DlqMsg.ofMsg m reason now).id ∉ mkeys db.dlq := by
          rw [hd]
          intro hk
          have := disj _ hk
          rw [show (DlqMsg.ofMsg m reason now).id = id from hmid, hg] at this
          cases this
        have hmk : (DlqMsg.ofMsg m reason now).id ∈ mkeys db.main := by
          rw [hm.mem, show (DlqMsg.ofMsg m reason now).id = id from hmid, hg]; simp
        refine ⟨⟨⟨rfl, hmk, hnk⟩, by simp [StorageOp.newId], trivial⟩, ?_, ?_⟩
        · have := hm.del id
          rw [← h7] at this
          have he : (DlqMsg.ofMsg m reason now).id = id := hmid
          simp only [execAll, List.foldl_cons, List.foldl_nil, execOp, he]
          exact this
        · simp only [execAll, List.foldl_cons, List.foldl_nil, execOp, insertRow_eq_mset hnk]
          rw [hd]; rfl
      · obtain ⟨h3, h6, h7⟩ := h2
        subst h3
        simp only [Verif.Queue.step, hn]
        refine ⟨⟨trivial, by simp [StorageOp.newId], trivial⟩, ?_, hd⟩
        subst hmid
        have := hm.upd (m := { m with failure := some reason, state := .ready, visibleAt := 0 }) (m0 := m) hg rfl
        simp only at this
        rw [← h7] at this
        exact this
  | tick now now' =>
    cases hnt : q.state.nextTimeout with
    | none => simp only [Verif.Queue.step, hnt]; exact triv rfl
    | some ts =>
      by_cases hts : ts ≤ now
      · simp only [Verif.Queue.step, hnt, hts, if_true]
        have hp := SR.processExpired (d := a.dead) st q.cfg.maxRetries now'
        simp only at hp
        obtain ⟨e1, e2, e3, e4, e5, e6, e7⟩ := hp
        generalize hP : q.state.processExpired q.cfg.maxRetries now' = P at *
        obtain ⟨r1, r2, r3⟩ := requeue_db used' P.1.1 hm e3
        have hk : ∀ e ∈ db.dlq, e.1 = e.2.id := by rw [hd]; exact dkey
        have hw : MWF db.dlq := by rw [hd]; exact dwf
        obtain ⟨x1, x2, x3⟩ := expire_db used' P.1.2 r2 (by rw [r3]; exact hk) (by rw [r3]; exact hw) (List.nodup_append.1 e4).2.1 (by
            intro d hd'
            obtain ⟨m0, h0, _⟩ := e5 d hd'
            split <;> simp [h0]) (by
            intro d hd' hkk
            rw [r3, hd] at hkk
            obtain ⟨m0, h0, _⟩ := e5 d hd'
            rw [disj _ hkk] at h0; cases h0)
        refine ⟨(Safe.append _ _).2 ⟨r1, x1⟩, ?_, ?_⟩
        · rw [execAll_append]
          refine MR.congr x2 ?_
          intro i
          by_cases hi : i ∈ P.1.2.map (·.id)
          · rw [if_pos hi]; exact (e6 i hi).symm
          · rw [if_neg hi, e7 i hi]
        · rw [execAll_append, x3, r3, hd]
      · simp only [Verif.Queue.step, hnt, hts, if_false]; exact triv rfl
  | peekDlq limit offset => exact triv rfl
  | moveToQueue id =>
    cases hg : mget q.dlq id with
    | none => simp only [Verif.Queue.step, dlqRemove, hg]; exact triv rfl
    | some d =>
      have hmem := mget_some_mem hg
      have hdid : d.id = id := (dkey _ hmem).symm
      have hk : id ∈ mkeys q.dlq := List.mem_map.2 ⟨_, hmem, rfl⟩
      have hn : mget q.state.registry d.toMsg.id = none := by
        rw [show d.toMsg.id = id from hdid]; exact disj id hk
      have hp := SR.push st (m := d.toMsg) hn rfl
      obtain ⟨i1, i2⟩ := hm.ins (m := d.toMsg) hn
      simp only [Verif.Queue.step, dlqRemove, hg]
      refine ⟨⟨⟨hdid, by rw [hd]; exact hk, ?_⟩, by simp [StorageOp.newId], trivial⟩, ?_, ?_⟩
      · rw [← hdid]; exact i1
      · simp only [hp.2]; exact i2
      · simp only [execAll, List.foldl_cons, List.foldl_nil, execOp, hd]
  | deleteDlq id =>
    cases hg : mget q.dlq id with
    | none => simp only [Verif.Queue.step, dlqRemove, hg]; exact triv rfl
    | some d =>
      simp only [Verif.Queue.step, dlqRemove, hg]
      exact ⟨⟨trivial, by simp [StorageOp.newId], trivial⟩, hm, by simp only [execAll, List.foldl_cons, List.foldl_nil, execOp, hd]⟩
  | purgeDlq => exact ⟨⟨trivial, by simp [StorageOp.newId], trivial⟩, hm, rfl⟩
  | counters => exact triv rfl

/-! ## Histories with commits and restarts -/

/-- Invariant of the queue with its database. -/
structure SysInv (s : Sys) (used : Id → Prop) : Prop where
  q : ∃ a, RQ s.q a used
  db : DBI s.db used
  safe : Safe used s.db s.pending
  agree : DBR s.q (execAll s.db s.pending)

theorem RQ.mono {q : QInner} {a : Q} {used used' : Id → Prop} (h : RQ q a used) (hu : ∀ i, used i → used' i) :
    RQ q a used' :=
  ⟨h.st, h.dead, h.dkey, h.dwf, h.disj, fun i hi => hu i (h.usedR i hi), fun i hi => hu i (h.usedD i hi)⟩

theorem SysInv.init (cfg : Config) (used : Id → Prop) : SysInv (Sys.new cfg) used := by
  refine ⟨⟨_, RQ.init cfg used⟩, ⟨MWF.nil, MWF.nil, ?_, ?_, ?_, ?_⟩, trivial, ⟨⟨MWF.nil, ?_⟩, rfl⟩⟩
  · simp [Sys.new, DB.empty]
  · simp [Sys.new, DB.empty, mkeys]
  · simp [Sys.new, DB.empty, mkeys]
  · simp [Sys.new, DB.empty, mkeys]
  · intro id; rfl

theorem SysInv.op {s : Sys} {used : Id → Prop} (h : SysInv s used) (o : Op) (hok : o.ok) (hf : ∀ id ∈ o.pushId, ¬ used id) :
    SysInv (s.step (.op o)).1 (fun i => used i ∨ i ∈ o.pushId) := by
  obtain ⟨⟨a, hq⟩, hdb, hsafe, hagree⟩ := h
  have hm : ∀ i, used i → (used i ∨ i ∈ o.pushId) := fun i hi => Or.inl hi
  obtain ⟨d1, d2⟩ := DBR.step hq hagree o hok hf (used' := fun i => used i ∨ i ∈ o.pushId) (fun i hi => Or.inr hi)
  refine ⟨⟨_, (RQ.step hq o hok hf).1⟩, hdb.mono hm, ?_, ?_⟩
  · exact (Safe.append _ _).2 ⟨Safe.mono hm _ hsafe, d1⟩
  · simp only [Sys.step, execAll_append]; exact d2

theorem SysInv.commit {s : Sys} {used : Id → Prop} (h : SysInv s used) (n : Nat) :
    SysInv (s.step (.commit n)).1 used := by
  obtain ⟨hq, hdb, hsafe, hagree⟩ := h
  have hsplit : s.pending.take n ++ s.pending.drop n = s.pending := List.take_append_drop n s.pending
  rw [← hsplit] at hsafe hagree
  obtain ⟨s1, s2⟩ := (Safe.append _ _).1 hsafe
  rw [execAll_append] at hagree
  exact ⟨hq, DBI.execAll _ hdb s1, s2, hagree⟩

theorem SysInv.restart {s : Sys} {used : Id → Prop} (h : SysInv s used) (now : Nat) :
    SysInv (s.step (.restart now)).1 used := by
  obtain ⟨hq, hdb, hsafe, hagree⟩ := h
  obtain ⟨r1, r2, r3⟩ := RQ.recover hdb s.q.cfg now
  refine ⟨⟨_, r1⟩, hdb, trivial, ⟨⟨hdb.wm, ?_⟩, r2.symm⟩⟩
  intro id
  show mget s.db.main id = Option.map Msg.row (mget (Verif.Queue.recover s.q.cfg now s.db).state.registry id)
  rw [r3 id, Option.map_map]
  cases mget s.db.main id <;> rfl

theorem SysInv.run : ∀ (es : List Event) {s : Sys} {used : Id → Prop}, SysInv s used →
    ValidHist es → (∀ id ∈ eventIds es, ¬ used id) →
    SysInv (s.run es).1 (fun i => used i ∨ i ∈ eventIds es) := by
  intro es
  induction es with
  | nil => intro s used h _ _; exact ⟨h.q.imp (fun a ha => ha.mono (fun i hi => Or.inl hi)), h.db.mono (fun i hi => Or.inl hi), h.safe.mono (fun i hi => Or.inl hi), h.agree⟩
  | cons e t ih =>
    intro s used h hv hf
    have hvt : ∀ (hn : (eventIds t).Nodup), ValidHist t := fun hn => ⟨fun e he => hv.1 e (List.mem_cons_of_mem _ he), hn⟩
    simp only [Sys.run]
    cases e with
    | op o =>
      have hnd := List.nodup_append.1 hv.2
      have hstep := h.op o (hv.1 (.op o) (List.mem_cons_self ..)) (fun id hid => hf id (List.mem_append_left _ hid))
      have := ih hstep (hvt hnd.2.1) (by
        intro id hid hu
        rcases hu with hu | hu
        · exact hf id (List.mem_append_right _ hid) hu
        · exact hnd.2.2 id hu id hid rfl)
      have hm : ∀ i, ((used i ∨ i ∈ o.pushId) ∨ i ∈ eventIds t) → (used i ∨ i ∈ eventIds (.op o :: t)) := by
        intro i hi
        rcases hi with (hi | hi) | hi
        · exact Or.inl hi
        · exact Or.inr (List.mem_append_left _ hi)
        · exact Or.inr (List.mem_append_right _ hi)
      exact ⟨this.q.imp (fun a ha => ha.mono hm), this.db.mono hm, this.safe.mono hm, this.agree⟩
    | commit n => exact ih (h.commit n) (hvt hv.2) hf
    | restart now => exact ih (h.restart now) (hvt hv.2) hf

end Verif.Queue
