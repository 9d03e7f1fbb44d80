import Verif.Proofs.QueueWriter

/-!
# What holds of the queue's tables whatever fails
-/

namespace Verif.Queue

open Spec.Queue (Item Dead Q Core Req Ans)

def Row.core (id : Id) (r : Row) : Core := (id, r.payload, r.priority, r.createdAt)

/-- Storage operations in the order in which they are sent: an insert has a new id, the others name ids given out before
(`U`), and what they write is `P`. -/
def Fits (P : Core → Prop) : (Id → Prop) → List StorageOp → Prop
  | _, [] => True
  | U, .insert m :: t => ¬ U m.id ∧ P m.core ∧ Fits P (fun i => U i ∨ i = m.id) t
  | U, .moveToDlq id m :: t => m.id = id ∧ U id ∧ P m.core ∧ Fits P U t
  | U, .moveToMain id m :: t => m.id = id ∧ U id ∧ P m.core ∧ Fits P U t
  | _, .insertDlq _ :: _ => False
  | U, .delete _ :: t => Fits P U t
  | U, .updateState _ _ _ :: t => Fits P U t
  | U, .deleteDlq _ :: t => Fits P U t
  | U, .purgeDlq :: t => Fits P U t

/-- The ids given out after the operations. -/
def grown (U : Id → Prop) (l : List StorageOp) : Id → Prop := fun i => U i ∨ i ∈ l.flatMap StorageOp.newId

theorem Fits.congr {P : Core → Prop} : ∀ {l : List StorageOp} {U V : Id → Prop}, (∀ i, U i ↔ V i) → Fits P U l → Fits P V l := by
  intro l
  induction l with
  | nil => intro U V _ _; trivial
  | cons op t ih =>
    intro U V h hf
    cases op with
    | insert m => exact ⟨fun hv => hf.1 ((h _).2 hv), hf.2.1, ih (fun i => or_congr (h i) Iff.rfl) hf.2.2⟩
    | moveToDlq id m => exact ⟨hf.1, (h _).1 hf.2.1, hf.2.2.1, ih h hf.2.2.2⟩
    | moveToMain id m => exact ⟨hf.1, (h _).1 hf.2.1, hf.2.2.1, ih h hf.2.2.2⟩
    | insertDlq m => exact hf
    | delete id => exact ih (U := U) h hf
    | updateState id v a => exact ih (U := U) h hf
    | deleteDlq id => exact ih (U := U) h hf
    | purgeDlq => exact ih (U := U) h hf

theorem Fits.append {P : Core → Prop} : ∀ {l l' : List StorageOp} {U : Id → Prop}, Fits P U l → Fits P (grown U l) l' → Fits P U (l ++ l') := by
  intro l
  induction l with
  | nil => intro l' U _ h; exact h.congr (fun i => by simp [grown])
  | cons op t ih =>
    intro l' U h1 h2
    have key : ∀ V, (∀ i, V i ↔ (U i ∨ i ∈ op.newId)) → Fits P V t → Fits P V (t ++ l') := by
      intro V hV ht
      refine ih ht (h2.congr ?_)
      intro i
      simp only [grown, List.flatMap_cons, List.mem_append, hV, or_assoc]
    cases op with
    | insert m => exact ⟨h1.1, h1.2.1, key _ (fun i => by simp [StorageOp.newId]) h1.2.2⟩
    | moveToDlq id m => exact ⟨h1.1, h1.2.1, h1.2.2.1, key _ (fun i => by simp [StorageOp.newId]) h1.2.2.2⟩
    | moveToMain id m => exact ⟨h1.1, h1.2.1, h1.2.2.1, key _ (fun i => by simp [StorageOp.newId]) h1.2.2.2⟩
    | insertDlq m => exact h1
    | delete id => exact key U (fun i => by simp [StorageOp.newId]) h1
    | updateState id v a => exact key U (fun i => by simp [StorageOp.newId]) h1
    | deleteDlq id => exact key U (fun i => by simp [StorageOp.newId]) h1
    | purgeDlq => exact key U (fun i => by simp [StorageOp.newId]) h1

theorem Fits.split {P : Core → Prop} : ∀ {l l' : List StorageOp} {U : Id → Prop}, Fits P U (l ++ l') → Fits P U l ∧ Fits P (grown U l) l' := by
  intro l
  induction l with
  | nil => intro l' U h; exact ⟨trivial, h.congr (fun i => by simp [grown])⟩
  | cons op t ih =>
    intro l' U h
    have key : ∀ V, (∀ i, V i ↔ (U i ∨ i ∈ op.newId)) → Fits P V (t ++ l') → Fits P V t ∧ Fits P (grown U (op :: t)) l' := by
      intro V hV ht
      obtain ⟨i1, i2⟩ := ih ht
      refine ⟨i1, i2.congr ?_⟩
      intro i
      simp only [grown, List.flatMap_cons, List.mem_append, hV, or_assoc]
    cases op with
    | insert m =>
      obtain ⟨k1, k2⟩ := key _ (fun i => by simp [StorageOp.newId]) h.2.2
      exact ⟨⟨h.1, h.2.1, k1⟩, k2⟩
    | moveToDlq id m =>
      obtain ⟨k1, k2⟩ := key U (fun i => by simp [StorageOp.newId]) h.2.2.2
      exact ⟨⟨h.1, h.2.1, h.2.2.1, k1⟩, k2⟩
    | moveToMain id m =>
      obtain ⟨k1, k2⟩ := key U (fun i => by simp [StorageOp.newId]) h.2.2.2
      exact ⟨⟨h.1, h.2.1, h.2.2.1, k1⟩, k2⟩
    | insertDlq m => exact absurd h id
    | delete id => exact key U (fun i => by simp [StorageOp.newId]) h
    | updateState id v a => exact key U (fun i => by simp [StorageOp.newId]) h
    | deleteDlq id => exact key U (fun i => by simp [StorageOp.newId]) h
    | purgeDlq => exact key U (fun i => by simp [StorageOp.newId]) h

/-- Everything in the tables is `P`. -/
def Content (P : Core → Prop) (db : DB) : Prop := (∀ e ∈ db.main, P (e.2.core e.1)) ∧ (∀ e ∈ db.dlq, P e.2.core)

theorem insertRow_mem {V : Type} {t : List (Id × V)} {i : Id} {v : V} {e : Id × V} (h : e ∈ insertRow t i v) :
    e ∈ t ∨ e = (i, v) := by
  unfold insertRow at h
  split at h
  · exact Or.inl h
  · rcases List.mem_append.1 h with h | h
    · exact Or.inl h
    · exact Or.inr (List.mem_singleton.1 h)

theorem insertRow_keys {V : Type} {t : List (Id × V)} {i j : Id} {v : V} (h : j ∈ mkeys (insertRow t i v)) : j ∈ mkeys t ∨ j = i := by
  obtain ⟨e, he, rfl⟩ := List.mem_map.1 h
  rcases insertRow_mem he with he | he
  · exact Or.inl (List.mem_map.2 ⟨e, he, rfl⟩)
  · exact Or.inr (by rw [he])

theorem mem_mupd_core {t : List (Id × Row)} {i : Id} {v a : Nat} {e : Id × Row}
    (h : e ∈ mupd t i (fun r => { r with visibleAt := v, attempts := a })) : ∃ e' ∈ t, e'.1 = e.1 ∧ e'.2.core e'.1 = e.2.core e.1 := by
  unfold mupd at h
  obtain ⟨e', he', rfl⟩ := List.mem_map.1 h
  refine ⟨e', he', ?_⟩
  split <;> exact ⟨rfl, rfl⟩

/-- One operation, with any fault, on tables that only hold ids given out before. -/
theorem fault_step {P : Core → Prop} {U : Id → Prop} {db : DB} {op : StorageOp} {t : List StorageOp} (h : DBI db U) (hc : Content P db)
    (hf : Fits P U (op :: t)) (f : Fault) :
    DBI (execFault db op f) (grown U [op]) ∧ Content P (execFault db op f) ∧ Fits P (grown U [op]) t := by
  obtain ⟨wm, wd, key, disj, um, ud⟩ := h
  obtain ⟨cm, cd⟩ := hc
  have mono : ∀ i, U i → grown U [op] i := fun i hi => Or.inl hi
  have hnone : DBI db (grown U [op]) := ⟨wm, wd, key, disj, fun i hi => mono i (um i hi), fun i hi => mono i (ud i hi)⟩
  have hfit : Fits P (grown U [op]) t := (Fits.split (l := [op]) hf).2
  refine and_assoc.1 ⟨?_, hfit⟩
  have hexec : DBI (execOp db op) (grown U [op]) ∧ Content P (execOp db op) := by
    cases op with
    | insert m =>
      refine ⟨⟨insertRow_wf wm _ _, wd, key, ?_, ?_, fun i hi => mono i (ud i hi)⟩, ?_, cd⟩
      · intro i hi hm
        rcases insertRow_keys hm with hm | hm
        · exact disj i hi hm
        · exact hf.1 (ud _ (hm ▸ hi))
      · intro i hi
        rcases insertRow_keys hi with hi | hi
        · exact mono i (um i hi)
        · exact Or.inr (by simp [StorageOp.newId, hi])
      · intro e he
        rcases insertRow_mem he with he | he
        · exact cm e he
        · rw [he]; exact hf.2.1
    | delete id =>
      refine ⟨⟨wm.mdel _, wd, key, ?_, ?_, fun i hi => mono i (ud i hi)⟩, ?_, cd⟩
      · intro i hi hm; exact disj i hi (mem_mkeys_mdel.1 hm).2
      · intro i hi; exact mono i (um i (mem_mkeys_mdel.1 hi).2)
      · intro e he; exact cm e (List.mem_filter.1 he).1
    | updateState id v a =>
      refine ⟨⟨by simp only [execOp]; exact MWF.mupd wm _ _, wd, key, ?_, ?_, fun i hi => mono i (ud i hi)⟩, ?_, cd⟩
      · intro i hi hm; simp only [execOp, mkeys_mupd] at hm; exact disj i hi hm
      · intro i hi; simp only [execOp, mkeys_mupd] at hi; exact mono i (um i hi)
      · intro e he
        obtain ⟨e', he', h1, h2⟩ := mem_mupd_core he
        rw [← h2]; exact cm e' he'
    | insertDlq m => exact absurd hf id
    | deleteDlq id =>
      refine ⟨⟨wm, wd.mdel _, ?_, ?_, fun i hi => mono i (um i hi), ?_⟩, cm, ?_⟩
      · intro e he; exact key e (List.mem_filter.1 he).1
      · intro i hi; exact disj i (mem_mkeys_mdel.1 hi).2
      · intro i hi; exact mono i (ud i (mem_mkeys_mdel.1 hi).2)
      · intro e he; exact cd e (List.mem_filter.1 he).1
    | moveToDlq id m =>
      obtain ⟨h1, h2, h3, _⟩ := hf
      subst h1
      refine ⟨⟨wm.mdel _, insertRow_wf wd _ _, ?_, ?_, ?_, ?_⟩, ?_, ?_⟩
      · intro e he
        rcases insertRow_mem he with he | he
        · exact key e he
        · rw [he]
      · intro i hi hm
        have hm' := mem_mkeys_mdel.1 hm
        rcases insertRow_keys hi with hi | hi
        · exact disj i hi hm'.2
        · exact hm'.1 hi
      · intro i hi; exact mono i (um i (mem_mkeys_mdel.1 hi).2)
      · intro i hi
        rcases insertRow_keys hi with hi | hi
        · exact mono i (ud i hi)
        · exact mono i (hi ▸ h2)
      · intro e he; exact cm e (List.mem_filter.1 he).1
      · intro e he
        rcases insertRow_mem he with he | he
        · exact cd e he
        · rw [he]; exact h3
    | moveToMain id m =>
      obtain ⟨h1, h2, h3, _⟩ := hf
      subst h1
      refine ⟨⟨insertRow_wf wm _ _, wd.mdel _, ?_, ?_, ?_, ?_⟩, ?_, ?_⟩
      · intro e he; exact key e (List.mem_filter.1 he).1
      · intro i hi hm
        have hi' := mem_mkeys_mdel.1 hi
        rcases insertRow_keys hm with hm | hm
        · exact disj i hi'.2 hm
        · exact hi'.1 hm
      · intro i hi
        rcases insertRow_keys hi with hi | hi
        · exact mono i (um i hi)
        · exact mono i (hi ▸ h2)
      · intro i hi; exact mono i (ud i (mem_mkeys_mdel.1 hi).2)
      · intro e he
        rcases insertRow_mem he with he | he
        · exact cm e he
        · rw [he]; exact h3
      · intro e he; exact cd e (List.mem_filter.1 he).1
    | purgeDlq =>
      exact ⟨⟨wm, MWF.nil, by simp [execOp], by simp [execOp, mkeys], fun i hi => mono i (um i hi), by simp [execOp, mkeys]⟩, cm, by simp [execOp]⟩
  cases f with
  | none => exact hexec
  | first => exact ⟨hnone, cm, cd⟩
  | second =>
    cases op with
    | moveToDlq id m =>
      refine ⟨⟨wm.mdel _, wd, key, ?_, ?_, fun i hi => mono i (ud i hi)⟩, ?_, cd⟩
      · intro i hi hm; exact disj i hi (mem_mkeys_mdel.1 hm).2
      · intro i hi; exact mono i (um i (mem_mkeys_mdel.1 hi).2)
      · intro e he; exact cm e (List.mem_filter.1 he).1
    | moveToMain id m =>
      refine ⟨⟨wm, wd.mdel _, ?_, ?_, fun i hi => mono i (um i hi), ?_⟩, cm, ?_⟩
      · intro e he; exact key e (List.mem_filter.1 he).1
      · intro i hi; exact disj i (mem_mkeys_mdel.1 hi).2
      · intro i hi; exact mono i (ud i (mem_mkeys_mdel.1 hi).2)
      · intro e he; exact cd e (List.mem_filter.1 he).1
    | insert m => exact hexec
    | delete id => exact hexec
    | updateState id v a => exact hexec
    | insertDlq m => exact hexec
    | deleteDlq id => exact hexec
    | purgeDlq => exact hexec

theorem grown_cons (U : Id → Prop) (op : StorageOp) (l : List StorageOp) (i : Id) : grown (grown U [op]) l i ↔ grown U (op :: l) i := by
  simp only [grown, List.flatMap_cons, List.flatMap_nil, List.append_nil, List.mem_append, or_assoc]

theorem faults_step {P : Core → Prop} : ∀ (l : List StorageOp) (fs : List Fault) {U : Id → Prop} {db : DB}, DBI db U → Content P db →
    Fits P U l → DBI (execFaults db l fs) (grown U l) ∧ Content P (execFaults db l fs) := by
  intro l
  induction l with
  | nil => intro fs U db h hc _; cases fs <;> exact ⟨h.mono (fun i hi => Or.inl hi), hc⟩
  | cons op t ih =>
    intro fs U db h hc hf
    cases fs with
    | nil =>
      obtain ⟨s1, s2, s3⟩ := fault_step h hc hf .none
      obtain ⟨i1, i2⟩ := ih [] s1 s2 s3
      exact ⟨i1.mono (fun i hi => (grown_cons U op t i).1 hi), i2⟩
    | cons f fs =>
      obtain ⟨s1, s2, s3⟩ := fault_step h hc hf f
      obtain ⟨i1, i2⟩ := ih fs s1 s2 s3
      exact ⟨i1.mono (fun i hi => (grown_cons U op t i).1 hi), i2⟩

/-! ## The operations of a request -/

theorem fits_updates {P : Core → Prop} {U : Id → Prop} {α : Type} (g : α → Id) (v a : α → Nat) : ∀ (l : List α) (t : List StorageOp), Fits P U t →
    Fits P U (l.map (fun m => StorageOp.updateState (g m) (v m) (a m)) ++ t) := by
  intro l t ht
  induction l with
  | nil => exact ht
  | cons m l ih => exact ih

theorem fits_moves {P : Core → Prop} {U : Id → Prop} : ∀ (l : List DlqMsg), (∀ d ∈ l, U d.id ∧ P d.core) →
    Fits P U (l.map (fun d => StorageOp.moveToDlq d.id d)) := by
  intro l
  induction l with
  | nil => intro _; trivial
  | cons d l ih => intro h; exact ⟨rfl, (h d (List.mem_cons_self ..)).1, (h d (List.mem_cons_self ..)).2, ih (fun x hx => h x (List.mem_cons_of_mem _ hx))⟩

/-- Everything in the queue is `P`. -/
def QContent (P : Core → Prop) (q : QInner) : Prop := ∀ c ∈ places q, P c

theorem QContent.reg {P : Core → Prop} {q : QInner} {a : Q} {used : Id → Prop} (h : RQ q a used) (hc : QContent P q) {id : Id} {m : Msg}
    (hm : mget q.state.registry id = some m) : P m.core ∧ m.id = id := by
  have hid : m.id = id := (RS.comp h.st id m hm).1
  subst hid
  refine ⟨?_, rfl⟩
  apply hc
  unfold places
  rcases (h.view.reg m).2 hm with hh | hh
  · exact List.mem_append_left _ (List.mem_append_left _ (List.mem_map.2 ⟨m, hh, rfl⟩))
  · exact List.mem_append_left _ (List.mem_append_right _ (List.mem_map.2 ⟨m, hh, rfl⟩))

theorem QContent.dlq {P : Core → Prop} {q : QInner} (hc : QContent P q) {e : Id × DlqMsg} (he : e ∈ q.dlq) : P e.2.core := by
  apply hc
  unfold places
  refine List.mem_append_right _ (List.mem_map.2 ⟨e.2, ?_, rfl⟩)
  rw [deadLetters_eq]
  exact List.mem_reverse.2 (List.mem_map.2 ⟨e, he, rfl⟩)

/-- What an event pushes. -/
def Op.pushCore : Op → List Core
  | .push id payload priority now => [(id, payload, priority, now)]
  | _ => []

theorem step_fits {P : Core → Prop} {q : QInner} {a : Q} {used : Id → Prop} (h : RQ q a used) (hc : QContent P q) (op : Op)
    (hf : ∀ id ∈ op.pushId, ¬ used id) (hp : ∀ c ∈ op.pushCore, P c) :
    Fits P used (step q op).2.2 ∧ ∀ i, grown used (step q op).2.2 i ↔ (used i ∨ i ∈ op.pushId) := by
  have hnil : ∀ {l : List StorageOp} {o : Op}, l = [] → o.pushId = [] → Fits P used l ∧ ∀ i, grown used l i ↔ (used i ∨ i ∈ o.pushId) := by
    intro l o hl ho
    rw [hl, ho]
    exact ⟨trivial, fun i => by simp [grown]⟩
  cases op with
  | push id payload priority now =>
    exact ⟨⟨hf id (by simp [Op.pushId]), hp _ (List.mem_singleton.mpr rfl), trivial⟩, fun i => by simp [grown, step, StorageOp.newId, Op.pushId, Msg.new]⟩
  | pop now =>
    rcases hps : q.state.popSingle now q.cfg.visibilityTimeout with ⟨o, b, s'⟩
    cases o with
    | none => simp only [step, hps]; exact hnil rfl rfl
    | some m => simp only [step, hps]; exact ⟨trivial, fun i => by simp [grown, StorageOp.newId, Op.pushId]⟩
  | consume max now =>
    by_cases hok : max * msgSize > isizeMax
    · simp only [step, hok, if_true]; exact hnil rfl rfl
    · simp only [step, hok, if_false]
      refine ⟨?_, ?_⟩
      · have := fits_updates (P := P) (U := used) (fun m : Msg => m.id) (fun m => m.visibleAt) (fun m => m.attempts)
          (q.state.takeBatch now q.cfg.visibilityTimeout max).1 [] trivial
        rwa [List.append_nil] at this
      · intro i
        simp [grown, StorageOp.newId, Op.pushId, List.flatMap_map]
  | ack id =>
    simp only [step]
    cases (q.state.ack id).1 with
    | true => exact ⟨trivial, fun i => by simp [grown, StorageOp.newId, Op.pushId]⟩
    | false => exact hnil rfl rfl
  | nack id reason now =>
    have hn := SR.nack (d := a.dead) h.st id reason q.cfg.maxRetries now
    simp only at hn
    obtain ⟨_, h2⟩ := hn
    rcases hnk : q.state.nack id reason q.cfg.maxRetries now with ⟨o, s'⟩
    rw [hnk] at h2
    cases hg : mget q.state.registry id with
    | none =>
      rw [hg] at h2
      obtain ⟨h3, _, _⟩ := h2
      simp only at h3
      subst h3
      simp only [step, hnk]
      exact hnil rfl rfl
    | some m =>
      obtain ⟨hP, hmid⟩ := hc.reg h hg
      rw [hg] at h2
      obtain ⟨_, h2⟩ := h2
      simp only at h2
      split at h2
      · obtain ⟨h3, _, _⟩ := h2
        subst h3
        simp only [step, hnk]
        refine ⟨⟨rfl, ?_, hP, trivial⟩, fun i => by simp [grown, StorageOp.newId, Op.pushId]⟩
        show used m.id
        rw [hmid]
        exact h.usedR id (by simp [hg])
      · obtain ⟨h3, _, _⟩ := h2
        subst h3
        simp only [step, hnk]
        exact ⟨trivial, fun i => by simp [grown, StorageOp.newId, Op.pushId]⟩
  | tick now now' =>
    cases hnt : q.state.nextTimeout with
    | none => simp only [step, hnt]; exact hnil rfl rfl
    | some ts =>
      by_cases hts : ts ≤ now
      · simp only [step, hnt, hts, if_true]
        have hpe := SR.processExpired (d := a.dead) h.st q.cfg.maxRetries now'
        simp only at hpe
        obtain ⟨_, _, _, _, e5, _, _⟩ := hpe
        refine ⟨?_, ?_⟩
        · refine fits_updates _ (fun _ => 0) _ _ _ (fits_moves _ ?_)
          intro d hd
          obtain ⟨m, hm, hdm⟩ := e5 d hd
          obtain ⟨hP, hmid⟩ := hc.reg h hm
          exact ⟨h.usedR d.id (by simp [hm]), by rw [hdm]; exact hP⟩
        · intro i
          simp [grown, StorageOp.newId, Op.pushId, List.flatMap_map]
      · simp only [step, hnt, hts, if_false]; exact hnil rfl rfl
  | peekDlq limit offset => exact hnil rfl rfl
  | moveToQueue id =>
    cases hg : mget q.dlq id with
    | none => simp only [step, dlqRemove, hg]; exact hnil rfl rfl
    | some d =>
      have hmem := mget_some_mem hg
      have hdid : d.id = id := (h.dkey _ hmem).symm
      simp only [step, dlqRemove, hg]
      refine ⟨⟨hdid, h.usedD id (List.mem_map.2 ⟨_, hmem, rfl⟩), hc.dlq hmem, trivial⟩, fun i => by simp [grown, StorageOp.newId, Op.pushId]⟩
  | deleteDlq id =>
    cases hg : mget q.dlq id with
    | none => simp only [step, dlqRemove, hg]; exact hnil rfl rfl
    | some d =>
      simp only [step, dlqRemove, hg]
      exact ⟨trivial, fun i => by simp [grown, StorageOp.newId, Op.pushId]⟩
  | purgeDlq => exact ⟨trivial, fun i => by simp [grown, step, StorageOp.newId, Op.pushId]⟩
  | counters => exact hnil rfl rfl

theorem pushed_one (op : Op) : pushed [op] = op.pushCore := by cases op <;> rfl

theorem step_content {P : Core → Prop} {q : QInner} {a : Q} {used : List Id} (h : RQ q a (· ∈ used)) (hc : QContent P q) (op : Op)
    (hok : op.ok) (hf : ∀ id ∈ op.pushId, id ∉ used) (hp : ∀ c ∈ op.pushCore, P c) : QContent P (step q op).1 := by
  have hfr : Fresh used [op] := by
    refine ⟨by simpa using hok, ?_, ?_⟩
    · cases op <;> simp [pushIds]
    · intro id hid
      refine hf id ?_
      cases op <;> simp_all [pushIds, Op.pushId]
  have hperm := places_run [op] h hfr
  intro c hcm
  have := hperm.mem_iff.1 (List.mem_append_left _ hcm)
  rcases List.mem_append.1 this with hh | hh
  · exact hc c hh
  · rw [pushed_one] at hh; exact hp c hh

theorem recover_content {P : Core → Prop} {db : DB} {used : Id → Prop} (h : DBI db used) (hc : Content P db) (cfg : Config) (now : Nat) :
    QContent P (recover cfg now db) := by
  obtain ⟨r1, r2, r3⟩ := RQ.recover h cfg now
  have hreg : ∀ m : Msg, mget (recover cfg now db).state.registry m.id = some m → P m.core := by
    intro m hm
    rw [r3 m.id] at hm
    cases hg : mget db.main m.id with
    | none => rw [hg] at hm; cases hm
    | some r =>
      rw [hg] at hm
      simp only [Option.map_some, Option.some.injEq] at hm
      have := hc.1 _ (mget_some_mem hg)
      rw [← hm]
      exact this
  intro c hcm
  unfold places at hcm
  rcases List.mem_append.1 hcm with hh | hh
  · rcases List.mem_append.1 hh with hh | hh
    · obtain ⟨m, hm, rfl⟩ := List.mem_map.1 hh
      exact hreg m ((r1.view.reg m).1 (Or.inl hm))
    · obtain ⟨m, hm, rfl⟩ := List.mem_map.1 hh
      exact hreg m ((r1.view.reg m).1 (Or.inr hm))
  · obtain ⟨d, hd, rfl⟩ := List.mem_map.1 hh
    rw [deadLetters_eq, r2] at hd
    obtain ⟨e, he, rfl⟩ := List.mem_map.1 (List.mem_reverse.1 hd)
    exact hc.2 e he

/-- What is handed out is in the queue afterwards. -/
theorem handed_out {q : QInner} {a : Q} {used : Id → Prop} (h : RQ q a used) (o : Op) {l : List Msg} (hl : (step q o).2.1 = .msgs l)
    {m : Msg} (hm : m ∈ l) : mget (step q o).1.state.registry m.id = some m := by
  cases o with
  | pop now =>
    have hp := SR.popSingle (d := a.dead) h.st now q.cfg.visibilityTimeout
    simp only at hp
    obtain ⟨_, _, _, h4, _⟩ := hp
    rcases hps : q.state.popSingle now q.cfg.visibilityTimeout with ⟨o, b, s'⟩
    rw [hps] at h4
    cases o with
    | none =>
      simp only [step, hps, Out.msgs.injEq] at hl
      subst hl; cases hm
    | some m' =>
      simp only [step, hps, Out.msgs.injEq] at hl
      subst hl
      have := List.mem_singleton.1 hm
      subst this
      obtain ⟨h6, _⟩ := h4 m rfl
      simp only [step, hps]
      simp only at h6
      rw [h6, fset_same]
  | consume max now =>
    by_cases hok : max * msgSize > isizeMax
    · simp only [step, hok, if_true] at hl; cases hl
    · simp only [step, hok, if_false, Out.msgs.injEq] at hl ⊢
      subst hl
      exact (takeBatch_mem now q.cfg.visibilityTimeout max h.st m hm).1
  | push id pl pr t => cases hl
  | ack id => simp only [step] at hl; cases hl
  | nack id reason now =>
    simp only [step] at hl
    split at hl <;> cases hl
  | tick now now' =>
    simp only [step] at hl
    split at hl
    · cases hl
    · split at hl <;> cases hl
  | peekDlq limit offset => cases hl
  | moveToQueue id =>
    simp only [step] at hl
    split at hl <;> cases hl
  | deleteDlq id =>
    simp only [step] at hl
    split at hl <;> cases hl
  | purgeDlq => cases hl
  | counters => cases hl

/-! ## Histories with failures -/

/-- Invariant whatever fails. -/
structure WInv (P : Core → Prop) (s : WSys) (used : List Id) : Prop where
  q : ∃ a, RQ s.q a (· ∈ used)
  qc : QContent P s.q
  db : ∃ U : Id → Prop, DBI s.db U ∧ Content P s.db ∧ Fits P U (s.batch ++ s.chan) ∧ ∀ i, grown U (s.batch ++ s.chan) i ↔ i ∈ used

theorem WInv.init (P : Core → Prop) (cfg : Config) : WInv P (WSys.new cfg) [] := by
  refine ⟨⟨_, RQ.init cfg _⟩, ?_, fun _ => False, ⟨MWF.nil, MWF.nil, ?_, ?_, ?_, ?_⟩, ⟨?_, ?_⟩, trivial, ?_⟩
  · intro c hc; simp [places, waiting, inFlight, deadLetters, WSys.new, QInner.empty, QState.new, QState.getMessages, QState.listing, dlqPeek] at hc
  · simp [WSys.new, DB.empty]
  · simp [WSys.new, DB.empty, mkeys]
  · simp [WSys.new, DB.empty, mkeys]
  · simp [WSys.new, DB.empty, mkeys]
  · simp [WSys.new, DB.empty]
  · simp [WSys.new, DB.empty]
  · intro i; simp [WSys.new, grown]

theorem grown_append (U : Id → Prop) (l l' : List StorageOp) (i : Id) : grown (grown U l) l' i ↔ grown U (l ++ l') i := by
  simp only [grown, List.flatMap_append, List.mem_append, or_assoc]

/-- A flush with any outcome. -/
theorem flush_inv {P : Core → Prop} {U : Id → Prop} {db : DB} {b c : List StorageOp} {used : List Id} (h : DBI db U) (hc : Content P db)
    (hf : Fits P U (b ++ c)) (hu : ∀ i, grown U (b ++ c) i ↔ i ∈ used) (r : Outcome) :
    ∃ U' : Id → Prop, DBI (flushBatch db b r).1 U' ∧ Content P (flushBatch db b r).1 ∧ Fits P U' ((flushBatch db b r).2 ++ c) ∧
      ∀ i, grown U' ((flushBatch db b r).2 ++ c) i ↔ i ∈ used := by
  obtain ⟨f1, f2⟩ := hf.split
  cases r with
  | noStart => exact ⟨U, h, hc, hf, hu⟩
  | commit fs =>
    obtain ⟨g1, g2⟩ := faults_step b fs h hc f1
    exact ⟨grown U b, g1, g2, f2, fun i => (grown_append U b c i).trans (hu i)⟩
  | noCommit =>
    exact ⟨grown U b, h.mono (fun i hi => Or.inl hi), hc, f2, fun i => (grown_append U b c i).trans (hu i)⟩

theorem WInv.step {P : Core → Prop} {size : Nat} {s : WSys} {used : List Id} (h : WInv P s used) (e : KEvent)
    (hok : ∀ o, e = .op o → o.ok ∧ (∀ id ∈ o.pushId, id ∉ used) ∧ ∀ c ∈ o.pushCore, P c) :
    WInv P (s.step size e).1 (used ++ eventIds (clientPart [e])) := by
  obtain ⟨⟨a, hq⟩, hqc, U, hdb, hcon, hfit, hgr⟩ := h
  cases e with
  | op o =>
    obtain ⟨h1, h2, h3⟩ := hok o rfl
    have hids : eventIds (clientPart [.op o]) = o.pushId := by simp [clientPart, eventIds]
    rw [hids]
    obtain ⟨f1, f2⟩ := step_fits (P := P) hq hqc o h2 h3
    have hs1 : Verif.Queue.WSys.step size s (.op o) = ({ s with q := (Verif.Queue.step s.q o).1, chan := s.chan ++ (Verif.Queue.step s.q o).2.2 }, some (Verif.Queue.step s.q o).2.1) := rfl
    rw [hs1]
    refine ⟨⟨_, (hq.stepU h1 h2).1⟩, step_content hq hqc o h1 h2 h3, U, hdb, hcon, ?_, ?_⟩
    · rw [← List.append_assoc]
      exact hfit.append (f1.congr (fun i => (hgr i).symm))
    · intro i
      rw [← List.append_assoc, ← grown_append]
      simp only [grown] at f2 hgr ⊢
      rw [hgr, List.mem_append]
      exact f2 i
  | recv r =>
    have hids : eventIds (clientPart [.recv r]) = [] := rfl
    rw [hids, List.append_nil]
    show WInv P (s.recv size r) used
    unfold WSys.recv
    cases hc : s.chan with
    | nil => exact ⟨⟨a, hq⟩, hqc, U, hdb, hcon, hfit, hgr⟩
    | cons op rest =>
      simp only
      have hp : (s.batch ++ [op] ++ rest.take (size - (s.batch ++ [op]).length)) ++ rest.drop (size - (s.batch ++ [op]).length) = s.batch ++ s.chan := by
        rw [hc]; simp
      rw [← hp] at hfit hgr
      split
      · exact ⟨⟨a, hq⟩, hqc, flush_inv hdb hcon hfit hgr r⟩
      · exact ⟨⟨a, hq⟩, hqc, U, hdb, hcon, hfit, hgr⟩
  | tick r =>
    have hids : eventIds (clientPart [.tick r]) = [] := rfl
    rw [hids, List.append_nil]
    show WInv P (s.tick r) used
    unfold WSys.tick
    cases hb : s.batch with
    | nil => exact ⟨⟨a, hq⟩, hqc, U, hdb, hcon, hfit, hgr⟩
    | cons x l =>
      simp only
      rw [hb] at hfit hgr
      exact ⟨⟨a, hq⟩, hqc, flush_inv hdb hcon hfit hgr r⟩
  | restart now =>
    have hids : eventIds (clientPart [.restart now]) = [] := rfl
    rw [hids, List.append_nil]
    have hdb' : DBI s.db (· ∈ used) := hdb.mono (fun i hi => (hgr i).1 (Or.inl hi))
    obtain ⟨r1, _, _⟩ := RQ.recover hdb' s.q.cfg now
    exact ⟨⟨_, r1⟩, recover_content hdb' hcon _ _, (· ∈ used), hdb', hcon, trivial, fun i => by simp [grown, Verif.Queue.WSys.step]⟩

theorem WInv.run {P : Core → Prop} {size : Nat} : ∀ (es : List KEvent) {s : WSys} {used : List Id}, WInv P s used →
    ValidHist (clientPart es) → (∀ id ∈ eventIds (clientPart es), id ∉ used) → (∀ c ∈ pushedBy (clientPart es), P c) →
    WInv P (s.run size es).1 (used ++ eventIds (clientPart es)) := by
  intro es
  induction es with
  | nil => intro s used h _ _ _; simpa [clientPart, eventIds, WSys.run] using h
  | cons e t ih =>
    intro s used h hv hn hp
    have hcp : clientPart (e :: t) = clientPart [e] ++ clientPart t := clientPart_append [e] t
    have hpb : pushedBy (clientPart (e :: t)) = pushedBy (clientPart [e]) ++ pushedBy (clientPart t) := by
      cases e with
      | op o => cases o <;> rfl
      | recv r => rfl
      | tick r => rfl
      | restart now => rfl
    rw [hcp] at hv hn
    rw [hpb] at hp
    rw [eventIds_append] at hn
    have hstep := h.step (size := size) e (by
      intro o ho
      subst ho
      refine ⟨hv.1 (.op o) (by simp [clientPart]), ?_, ?_⟩
      · intro id hid
        exact hn id (List.mem_append_left _ (by simpa [clientPart, eventIds] using hid))
      · intro c hc
        refine hp c (List.mem_append_left _ ?_)
        cases o <;> simp_all [Op.pushCore, clientPart, pushedBy])
    have := ih hstep hv.right.1 (by
      intro id hid hu
      rcases List.mem_append.1 hu with hu | hu
      · exact hn id (List.mem_append_right _ hid) hu
      · exact hv.right.2 id hid hu) (fun c hc => hp c (List.mem_append_right _ hc))
    rw [List.append_assoc, ← eventIds_append, ← hcp] at this
    exact this

end Verif.Queue
