import Verif.Spec.QueueLife
import Verif.Proofs.QueueManager

/-!
# Overlapping requests that create, delete and use one queue: proofs
-/

namespace Verif.Queue

theorem DbFile.exec_nil (d : DbFile) : d.exec [] = d := by
  unfold DbFile.exec
  split <;> rfl

/-- An object that is not in the map any more: its storage task has ended, or a delete has yet to wait for it. -/
def Ending (s : Life) (k : Nat) (x : Shared) : Prop :=
  (x.closed = true ∧ x.pending = [] ∧ x.file.isSome = true) ∨ (∃ r, mget s.deletes r = some (.out k)) ∨
  (x.closed = true ∧ ∃ r, mget s.deletes r = some (.wait k))

/-- How the state is related to the reference. -/
structure LRel (s : Life) (t : Option Sys) : Prop where
  fresh : ∀ k x, mget s.objs k = some x → k < s.nextObj
  gone : t = none → s.live = none ∧ (s.path.isSome → ∃ r st, mget s.deletes r = some st ∧ st ≠ .cfg) ∧
    (s.cfg.isSome → ∃ r st, mget s.deletes r = some st)
  there : ∀ y, t = some y → ∃ k f fo, s.live = some k ∧ s.deletes = [] ∧ s.path = some f ∧ mget s.files f = some ⟨true, y.db⟩ ∧
    s.cfg = some y.q.cfg ∧ mget s.objs k = some ⟨y.q, y.pending, fo, false⟩ ∧ (fo = none ∨ fo = some f)
  rest : ∀ k x, mget s.objs k = some x → s.live ≠ some k → Ending s k x

theorem LRel.init : LRel Life.new none where
  fresh := fun _ _ h => nomatch h
  gone := fun _ => ⟨rfl, (fun h => nomatch h), (fun h => nomatch h)⟩
  there := fun _ h => nomatch h
  rest := fun _ _ h => nomatch h

/-- While the queue exists, the storage tasks of its predecessors have ended. -/
theorem LRel.ended {s : Life} {y : Sys} (h : LRel s (some y)) {k : Nat} {x : Shared} (hk : mget s.objs k = some x) (hl : s.live ≠ some k) :
    x.closed = true ∧ x.pending = [] ∧ x.file.isSome = true := by
  obtain ⟨_, _, _, _, hd, _⟩ := h.there y rfl
  rcases h.rest k x hk hl with h | ⟨r, hr⟩ | ⟨_, r, hr⟩
  · exact h
  · rw [hd] at hr; exact nomatch hr
  · rw [hd] at hr; exact nomatch hr

/-- Building a queue when there is no file gives an empty queue. -/
theorem build_new {s : Life} (cfg : Config) (now : Nat) (hp : s.path = none) :
    ({ s with cfg := some cfg } : Life).build cfg now =
      { s with cfg := some cfg, path := some s.nextFile, nextFile := s.nextFile + 1,
               files := mset (mset s.files s.nextFile ⟨false, DB.empty⟩) s.nextFile ⟨true, DB.empty⟩,
               objs := mset s.objs s.nextObj ⟨QInner.empty cfg, [], none, false⟩, nextObj := s.nextObj + 1, live := some s.nextObj } := by
  simp only [Life.build, Life.open, hp, mget_mset, if_true, Option.map_some, Option.getD_some]
  rfl

theorem build_old {s : Life} (cfg : Config) (now : Nat) {f : Nat} {d : DbFile} (hp : s.path = some f) (hf : mget s.files f = some d) :
    s.build cfg now =
      { s with files := mset s.files f ⟨true, d.db⟩,
               objs := mset s.objs s.nextObj ⟨recover cfg now d.db, [], none, false⟩, nextObj := s.nextObj + 1, live := some s.nextObj } := by
  simp only [Life.build, Life.open, hp, hf, Option.map_some, Option.getD_some]

/-- The storage task's steps and the later stages of deletes, when the queue does not exist. -/
theorem LRel.deleteOn {s : Life} {t : Option Sys} (h : LRel s t) (r : Nat) : LRel (s.deleteOn r).1 t := by
  cases t with
  | some y =>
    obtain ⟨_, _, _, _, hd, _⟩ := h.there y rfl
    have : (s.deleteOn r).1 = s := by simp only [Life.deleteOn, hd, mget_nil]
    rw [this]; exact h
  | none =>
    obtain ⟨h1, h2, h3⟩ := h.gone rfl
    cases hr : mget s.deletes r with
    | none =>
      have : (s.deleteOn r).1 = s := by simp only [Life.deleteOn, hr]
      rw [this]; exact h
    | some st =>
      cases st with
      | out k =>
        have : (s.deleteOn r).1 = { s with objs := mupd s.objs k (fun x => { x with closed := true }), deletes := mset s.deletes r (.wait k) } := by
          simp only [Life.deleteOn, hr]
        rw [this]
        refine ⟨?_, ?_, (fun _ hh => nomatch hh), ?_⟩
        · intro j x hx
          rw [mget_mupd] at hx
          split at hx
          · next hj =>
            subst hj
            obtain ⟨x0, hx0, _⟩ := Option.map_eq_some_iff.1 hx
            exact h.fresh _ x0 hx0
          · exact h.fresh _ x hx
        · intro _
          refine ⟨h1, ?_, ?_⟩
          · intro _; exact ⟨r, .wait k, by rw [mget_mset_same], by simp⟩
          · intro _; exact ⟨r, .wait k, by rw [mget_mset_same]⟩
        · intro j x hx hl
          rw [mget_mupd] at hx
          split at hx
          · next hj =>
            subst hj
            obtain ⟨x0, hx0, he⟩ := Option.map_eq_some_iff.1 hx
            exact Or.inr (Or.inr ⟨by rw [← he], r, by simp only [mget_mset_same]⟩)
          · next hj =>
            rcases h.rest j x hx hl with h' | ⟨r', hr'⟩ | ⟨hc, r', hr'⟩
            · exact Or.inl h'
            · refine Or.inr (Or.inl ⟨r', ?_⟩)
              simp only [mget_mset]
              split
              · next he => subst he; rw [hr] at hr'; injection hr' with hr'; injection hr' with hr'; exact absurd hr'.symm hj
              · exact hr'
            · refine Or.inr (Or.inr ⟨hc, r', ?_⟩)
              simp only [mget_mset]
              split
              · next he => subst he; rw [hr] at hr'; exact nomatch hr'
              · exact hr'
      | wait k =>
        by_cases hdr : ((mget s.objs k).map Shared.drained).getD true = true
        · have : (s.deleteOn r).1 = { s with deletes := mset s.deletes r .files } := by
            simp only [Life.deleteOn, hr, hdr, if_true]
          rw [this]
          refine ⟨h.fresh, ?_, (fun _ hh => nomatch hh), ?_⟩
          · intro _
            refine ⟨h1, ?_, ?_⟩
            · intro _; exact ⟨r, .files, by rw [mget_mset_same], by decide⟩
            · intro _; exact ⟨r, .files, by rw [mget_mset_same]⟩
          · intro j x hx hl
            rcases h.rest j x hx hl with h' | ⟨r', hr'⟩ | ⟨hc, r', hr'⟩
            · exact Or.inl h'
            · refine Or.inr (Or.inl ⟨r', ?_⟩)
              simp only [mget_mset]
              split
              · next he => subst he; rw [hr] at hr'; exact nomatch hr'
              · exact hr'
            · by_cases he : r' = r
              · subst he
                rw [hr] at hr'
                injection hr' with hr'; injection hr' with hr'
                subst hr'
                refine Or.inl ?_
                have hx' : mget s.objs k = some x := hx
                rw [hx'] at hdr
                simp only [Option.map_some, Option.getD_some, Shared.drained, Bool.and_eq_true, List.isEmpty_iff] at hdr
                exact ⟨hdr.1.1, hdr.1.2, hdr.2⟩
              · refine Or.inr (Or.inr ⟨hc, r', ?_⟩)
                simp only [mget_mset, if_neg he]; exact hr'
        · have : (s.deleteOn r).1 = s := by
            simp only [Life.deleteOn, hr]
            rw [if_neg hdr]
          rw [this]; exact h
      | files =>
        have : (s.deleteOn r).1 = { s with path := none, deletes := mset s.deletes r .cfg } := by
          simp only [Life.deleteOn, hr]
        rw [this]
        refine ⟨h.fresh, ?_, (fun _ hh => nomatch hh), ?_⟩
        · intro _
          exact ⟨h1, (fun hh => nomatch hh), (fun _ => ⟨r, .cfg, by rw [mget_mset_same]⟩)⟩
        · intro j x hx hl
          rcases h.rest j x hx hl with h' | ⟨r', hr'⟩ | ⟨hc, r', hr'⟩
          · exact Or.inl h'
          · refine Or.inr (Or.inl ⟨r', ?_⟩)
            simp only [mget_mset]
            split
            · next he => subst he; rw [hr] at hr'; exact nomatch hr'
            · exact hr'
          · refine Or.inr (Or.inr ⟨hc, r', ?_⟩)
            simp only [mget_mset]
            split
            · next he => subst he; rw [hr] at hr'; exact nomatch hr'
            · exact hr'
      | cfg =>
        have : (s.deleteOn r).1 = { s with cfg := none, deletes := mdel s.deletes r } := by
          simp only [Life.deleteOn, hr]
        rw [this]
        refine ⟨h.fresh, ?_, (fun _ hh => nomatch hh), ?_⟩
        · intro _
          refine ⟨h1, ?_, (fun hh => nomatch hh)⟩
          intro hp
          obtain ⟨r', st, hr', hst⟩ := h2 hp
          refine ⟨r', st, ?_, hst⟩
          rw [mget_mdel]
          split
          · next he => subst he; rw [hr] at hr'; injection hr' with hr'; exact absurd hr'.symm hst
          · exact hr'
        · intro j x hx hl
          rcases h.rest j x hx hl with h' | ⟨r', hr'⟩ | ⟨hc, r', hr'⟩
          · exact Or.inl h'
          · refine Or.inr (Or.inl ⟨r', ?_⟩)
            simp only [mget_mdel]
            split
            · next he => subst he; rw [hr] at hr'; exact nomatch hr'
            · exact hr'
          · refine Or.inr (Or.inr ⟨hc, r', ?_⟩)
            simp only [mget_mdel]
            split
            · next he => subst he; rw [hr] at hr'; exact nomatch hr'
            · exact hr'

/-- A request or storage step on an object that is not in the map. -/
theorem LRel.old {s : Life} {t : Option Sys} (h : LRel s t) {k : Nat} {x x' : Shared} (hx : mget s.objs k = some x) (hl : s.live ≠ some k)
    (h1 : Ending s k x → Ending s k x') : LRel { s with objs := mset s.objs k x' } t := by
  refine ⟨?_, h.gone, ?_, ?_⟩
  · intro j z hz
    rw [mget_mset] at hz
    split at hz
    · next hj => subst hj; exact h.fresh _ _ hx
    · exact h.fresh _ _ hz
  · intro y hy
    obtain ⟨k0, f, fo, a, b, c, d, e, g, i⟩ := h.there y hy
    refine ⟨k0, f, fo, a, b, c, d, e, ?_, i⟩
    rw [mget_mset, if_neg]
    · exact g
    · intro he; exact hl (by rw [a, he])
  · intro j z hz hl'
    rw [mget_mset] at hz
    split at hz
    · next hj =>
      subst hj
      injection hz with hz
      rw [← hz]
      exact h1 (h.rest j x hx hl)
    · exact h.rest j z hz hl'

theorem LRel.late {s : Life} {t : Option Sys} (h : LRel s t) (dflt : Config) (k : Nat) (o : Op) : LRel (s.step dflt (.late k o)).1 t := by
  simp only [Life.step]
  split
  · exact h
  · next hl =>
    cases hx : mget s.objs k with
    | none => exact h
    | some x =>
      refine h.old hx hl ?_
      rintro (⟨a, b, c⟩ | h' | ⟨a, h'⟩)
      · exact Or.inl ⟨a, by simp only [Shared.op, a, if_true, b], c⟩
      · exact Or.inr (Or.inl h')
      · exact Or.inr (Or.inr ⟨a, h'⟩)

/-- A state with other files, but the same contents in them. -/
theorem LRel.sameFiles {s : Life} {t : Option Sys} (h : LRel s t) {fs : List (Nat × DbFile)} (hf : ∀ y, t = some y → ∀ f, mget fs f = mget s.files f) :
    LRel { s with files := fs } t := by
  refine ⟨h.fresh, h.gone, ?_, h.rest⟩
  intro y hy
  obtain ⟨k, f, fo, a, b, c, d, e, g, i⟩ := h.there y hy
  exact ⟨k, f, fo, a, b, c, (hf y hy f).trans d, e, g, i⟩

theorem LRel.opens {s : Life} {t : Option Sys} (h : LRel s t) (dflt : Config) (k : Nat) : LRel (s.step dflt (.opens k)).1 t := by
  simp only [Life.step]
  cases hx : mget s.objs k with
  | none => exact h
  | some x =>
    cases hf : x.file with
    | some f => simp only [hf]; exact h
    | none =>
      simp only [hf]
      by_cases hl : s.live = some k
      · cases t with
        | none => rw [(h.gone rfl).1] at hl; exact nomatch hl
        | some y =>
          obtain ⟨k0, f, fo, a, b, c, d, e, g, i⟩ := h.there y rfl
          rw [hl] at a; injection a with a; subst a
          rw [hx] at g; injection g with g
          have ho : s.open = (s, f) := by simp only [Life.open, c]
          rw [ho]
          refine ⟨?_, (fun hh => nomatch hh), ?_, ?_⟩
          · intro j z hz
            rw [mget_mset] at hz
            split at hz
            · next hj => subst hj; exact h.fresh _ _ hx
            · exact h.fresh _ _ hz
          · intro y' hy'
            injection hy' with hy'; subst hy'
            exact ⟨k, f, some f, hl, b, c, d, e, by rw [mget_mset_same, g], Or.inr rfl⟩
          · intro j z hz hl'
            rw [mget_mset] at hz
            split at hz
            · next hj => subst hj; exact absurd hl hl'
            · exact h.rest j z hz hl'
      · have hend := h.rest k x hx hl
        cases t with
        | some y =>
          have := (h.ended hx hl).2.2
          rw [hf] at this; exact nomatch this
        | none =>
          obtain ⟨h1, h2, h3⟩ := h.gone rfl
          have hdel : ∃ r st, mget s.deletes r = some st ∧ st ≠ .cfg := by
            rcases hend with ⟨_, _, hh⟩ | ⟨r, hr⟩ | ⟨_, r, hr⟩
            · rw [hf] at hh; exact nomatch hh
            · exact ⟨r, _, hr, by simp⟩
            · exact ⟨r, _, hr, by simp⟩
          have ho : s.open.1.live = s.live ∧ s.open.1.deletes = s.deletes ∧ s.open.1.objs = s.objs ∧ s.open.1.nextObj = s.nextObj ∧ s.open.1.cfg = s.cfg := by
            unfold Life.open; split <;> exact ⟨rfl, rfl, rfl, rfl, rfl⟩
          obtain ⟨o1, o2, o3, o4, o5⟩ := ho
          refine ⟨?_, ?_, (fun _ hh => nomatch hh), ?_⟩
          · intro j z hz
            simp only [o3, o4] at hz ⊢
            rw [mget_mset] at hz
            split at hz
            · next hj => subst hj; exact h.fresh _ _ hx
            · exact h.fresh _ _ hz
          · intro _
            simp only [o1, o2, o5]
            exact ⟨h1, (fun _ => hdel), h3⟩
          · intro j z hz hl'
            simp only [o1, o3] at hz hl'
            rw [mget_mset] at hz
            unfold Ending
            simp only [o2]
            split at hz
            · next hj =>
              subst hj; injection hz with hz; subst hz
              rcases hend with ⟨a, b, _⟩ | h' | h'
              · exact Or.inl ⟨a, b, rfl⟩
              · exact Or.inr (Or.inl h')
              · exact Or.inr (Or.inr h')
            · exact h.rest j z hz hl'

/-- Commits are commits of the reference if they are on the queue in the map, and otherwise nothing. -/
theorem LRel.commits {s : Life} {t : Option Sys} (h : LRel s t) (dflt : Config) (k n : Nat) :
    ∃ es', es'.filter MEvent.isRequest = [] ∧ LRel (s.step dflt (.commits k n)).1 (loneRun dflt t es').1 ∧ toldLone es' (loneRun dflt t es').2 = [] := by
  simp only [Life.step]
  cases hx : mget s.objs k with
  | none => exact ⟨[], rfl, h, rfl⟩
  | some x =>
    cases hf : x.file with
    | none => simp only [hf]; exact ⟨[], rfl, h, rfl⟩
    | some f =>
      simp only [hf]
      by_cases hl : s.live = some k
      · cases t with
        | none => rw [(h.gone rfl).1] at hl; exact nomatch hl
        | some y =>
          refine ⟨[.commit [] n], rfl, ?_, rfl⟩
          obtain ⟨k0, f0, fo, a, b, c, d, e, g, i⟩ := h.there y rfl
          rw [hl] at a; injection a with a; subst a
          rw [hx] at g; injection g with g
          subst g
          have hff : f = f0 := by
            rcases i with i | i
            · rw [i] at hf; exact nomatch hf
            · rw [i] at hf; injection hf with hf; exact hf.symm
          subst hff
          refine ⟨?_, (fun hh => nomatch hh), ?_, ?_⟩
          · intro j z hz
            rw [mget_mset] at hz
            split at hz
            · next hj => subst hj; exact h.fresh _ _ hx
            · exact h.fresh _ _ hz
          · intro y' hy'
            simp only [loneRun, loneStep, Option.map_some, Sys.step, Option.some.injEq] at hy'
            subst hy'
            refine ⟨k, f, some f, hl, b, c, ?_, e, ?_, Or.inr rfl⟩
            · simp only [mget_mupd, if_true, d]; rfl
            · rw [mget_mset_same]
          · intro j z hz hl'
            rw [mget_mset] at hz
            split at hz
            · next hj => subst hj; exact absurd hl hl'
            · exact h.rest j z hz hl'
      · refine ⟨[], rfl, ?_, rfl⟩
        have h' := h.old (x' := ⟨x.q, x.pending.drop n, some f, x.closed⟩) hx hl (by
          rintro (⟨a, b, c⟩ | h' | h')
          · exact Or.inl ⟨a, by simp [b], rfl⟩
          · exact Or.inr (Or.inl h')
          · exact Or.inr (Or.inr h'))
        refine h'.sameFiles (fs := mupd s.files f (fun d => d.exec (x.pending.take n))) ?_
        intro y hy g
        subst hy
        have := (h.ended hx hl).2.1
        rw [mget_mupd, this]
        simp only [List.take_nil, DbFile.exec_nil]
        split
        · next he => subst he; simp
        · rfl

/-- One event. -/
theorem life_step {s : Life} {t : Option Sys} (h : LRel s t) (dflt : Config) (e : LEvent) (ha : Apart dflt s [e]) :
    ∃ es', es'.filter MEvent.isRequest = requests [e] ∧ LRel (s.step dflt e).1 (loneRun dflt t es').1 ∧
      told [e] [(s.step dflt e).2] = toldLone es' (loneRun dflt t es').2 := by
  cases e with
  | deleteOn r => exact ⟨[], rfl, h.deleteOn r, rfl⟩
  | late k o => exact ⟨[], rfl, h.late dflt k o, rfl⟩
  | opens k => exact ⟨[], rfl, h.opens dflt k, rfl⟩
  | commits k n =>
    obtain ⟨es', h1, h2, h3⟩ := h.commits dflt k n
    exact ⟨es', h1, h2, h3.symm⟩
  | exist =>
    refine ⟨[.exist []], rfl, h, ?_⟩
    cases t with
    | none => simp only [told, toldLone, loneRun, loneStep, Life.step, (h.gone rfl).1, Option.isSome]
    | some y =>
      obtain ⟨k, f, fo, a, _⟩ := h.there y rfl
      simp only [told, toldLone, loneRun, loneStep, Life.step, a, Option.isSome]
  | create vt mr now =>
    refine ⟨[.create [] vt mr now], rfl, ?_, ?_⟩
    · have hd : s.deletes = [] := ha.1
      cases t with
      | some y =>
        obtain ⟨k, f, fo, a, _⟩ := h.there y rfl
        simp only [Life.step, a, loneRun, loneStep]
        exact h
      | none =>
        obtain ⟨h1, h2, h3⟩ := h.gone rfl
        have hp : s.path = none := by
          cases hp : s.path with
          | none => rfl
          | some f =>
            obtain ⟨r, st, hr, _⟩ := h2 (by rw [hp]; rfl)
            rw [hd] at hr; exact nomatch hr
        simp only [Life.step, h1, loneRun, loneStep]
        have hb := build_new (s := { s with live := none }) (Config.fromOptions vt mr dflt) now hp
        simp only at hb
        rw [hb]
        refine ⟨?_, (fun hh => nomatch hh), ?_, ?_⟩
        · intro j z hz
          simp only [mget_mset] at hz
          split at hz
          · next hj => subst hj; exact Nat.lt_succ_self _
          · exact Nat.lt_succ_of_lt (h.fresh _ _ hz)
        · intro y hy
          injection hy with hy; subst hy
          exact ⟨s.nextObj, s.nextFile, none, rfl, hd, rfl, by rw [mget_mset_same]; rfl, rfl, by simp only [mget_mset_same]; rfl, Or.inl rfl⟩
        · intro j z hz hl
          simp only [mget_mset] at hz
          split at hz
          · next hj => subst hj; exact absurd rfl hl
          · exact h.rest j z hz (by rw [h1]; exact fun hh => nomatch hh)
    · cases t with
      | some y =>
        obtain ⟨k, f, fo, a, _⟩ := h.there y rfl
        simp only [Life.step, a, loneRun, loneStep, told, toldLone]
      | none => simp only [Life.step, (h.gone rfl).1, loneRun, loneStep, told, toldLone]
  | delete r =>
    refine ⟨[.delete []], rfl, ?_, rfl⟩
    simp only [loneRun, loneStep]
    cases t with
    | some y =>
      obtain ⟨k, f, fo, a, b, c, d, e, g, i⟩ := h.there y rfl
      have hm : ¬ mhas s.deletes r = true := by rw [b]; exact fun hh => nomatch hh
      simp only [Life.step, a]
      rw [if_neg hm]
      refine ⟨h.fresh, ?_, (fun _ hh => nomatch hh), ?_⟩
      · intro _
        exact ⟨rfl, (fun _ => ⟨r, _, by rw [mget_mset_same], by simp⟩), (fun _ => ⟨r, _, by rw [mget_mset_same]⟩)⟩
      · intro j z hz _
        by_cases hj : j = k
        · subst hj; exact Or.inr (Or.inl ⟨r, by simp only [mget_mset_same]⟩)
        · exact Or.inl (h.ended hz (by rw [a]; intro hh; injection hh with hh; exact hj hh.symm))
    | none =>
      obtain ⟨h1, h2, h3⟩ := h.gone rfl
      simp only [Life.step]
      split
      · exact h
      · next hm =>
        simp only [h1]
        have hnone : mget s.deletes r = none := by
          cases hg : mget s.deletes r with
          | none => rfl
          | some st => exact absurd (by unfold mhas; rw [hg]; rfl) hm
        have hne : ∀ r' st, mget s.deletes r' = some st → mget (mset s.deletes r .files) r' = some st := by
          intro r' st hr'
          rw [mget_mset, if_neg]
          · exact hr'
          · intro he; subst he; rw [hnone] at hr'; exact nomatch hr'
        refine ⟨h.fresh, ?_, (fun _ hh => nomatch hh), ?_⟩
        · intro _
          exact ⟨rfl, (fun _ => ⟨r, .files, by rw [mget_mset_same], by decide⟩), (fun _ => ⟨r, .files, by rw [mget_mset_same]⟩)⟩
        · intro j z hz hl
          rcases h.rest j z hz (by rw [h1]; exact fun hh => nomatch hh) with h' | ⟨r', hr'⟩ | ⟨hc, r', hr'⟩
          · exact Or.inl h'
          · exact Or.inr (Or.inl ⟨r', hne _ _ hr'⟩)
          · exact Or.inr (Or.inr ⟨hc, r', hne _ _ hr'⟩)
  | call o =>
    refine ⟨[.op [] o], rfl, ?_, ?_⟩
    · cases t with
      | none =>
        simp only [Life.step, (h.gone rfl).1, loneRun, loneStep]
        exact h
      | some y =>
        obtain ⟨k, f, fo, a, b, c, d, e, g, i⟩ := h.there y rfl
        simp only [Life.step, a, g, loneRun, loneStep]
        refine ⟨?_, (fun hh => nomatch hh), ?_, ?_⟩
        · intro j z hz
          rw [mget_mset] at hz
          split at hz
          · next hj => subst hj; exact h.fresh _ _ g
          · exact h.fresh _ _ hz
        · intro y' hy'
          injection hy' with hy'; subst hy'
          refine ⟨k, f, fo, rfl, b, c, d, ?_, ?_, i⟩
          · simp only [Sys.step, step_cfg]; exact e
          · rw [mget_mset_same]; rfl
        · intro j z hz hl'
          rw [mget_mset] at hz
          split at hz
          · next hj => subst hj; exact absurd rfl hl'
          · exact h.rest j z hz (by rw [a]; exact hl')
    · cases t with
      | none => simp only [Life.step, (h.gone rfl).1, loneRun, loneStep, told, toldLone]
      | some y =>
        obtain ⟨k, f, fo, a, b, c, d, e, g, i⟩ := h.there y rfl
        simp only [Life.step, a, g, loneRun, loneStep, told, toldLone]
  | restart now =>
    refine ⟨[.restart now], rfl, ?_, rfl⟩
    have hd : s.deletes = [] := ha.1
    cases t with
    | none =>
      obtain ⟨h1, h2, h3⟩ := h.gone rfl
      have hp : s.path = none := by
        cases hp : s.path with
        | none => rfl
        | some f =>
          obtain ⟨r, st, hr, _⟩ := h2 (by rw [hp]; rfl)
          rw [hd] at hr; exact nomatch hr
      have hc : s.cfg = none := by
        cases hp : s.cfg with
        | none => rfl
        | some f =>
          obtain ⟨r, st, hr⟩ := h3 (by rw [hp]; rfl)
          rw [hd] at hr; exact nomatch hr
      simp only [Life.step, hp, loneRun, loneStep, Option.map_none]
      refine ⟨(fun _ _ hh => nomatch hh), ?_, (fun _ hh => nomatch hh), (fun _ _ hh => nomatch hh)⟩
      intro _
      exact ⟨rfl, (fun hh => nomatch hh), (by rw [hc]; exact fun hh => nomatch hh)⟩
    | some y =>
      obtain ⟨k, f, fo, a, b, c, d, e, g, i⟩ := h.there y rfl
      simp only [Life.step, c, e, loneRun, loneStep, Option.map_some, Option.getD_some]
      have hb := build_old (s := { s with live := none, objs := [], deletes := [] }) y.q.cfg now c d
      simp only [c, e] at hb
      rw [hb]
      refine ⟨?_, (fun hh => nomatch hh), ?_, ?_⟩
      · intro j z hz
        simp only [mget_mset] at hz
        split at hz
        · next hj => subst hj; exact Nat.lt_succ_self _
        · exact nomatch hz
      · intro y' hy'
        injection hy' with hy'; subst hy'
        exact ⟨s.nextObj, f, none, rfl, rfl, rfl, by rw [mget_mset_same]; rfl, rfl, by simp only [mget_mset_same]; rfl, Or.inl rfl⟩
      · intro j z hz hl'
        simp only [mget_mset] at hz
        split at hz
        · next hj => subst hj; exact absurd rfl hl'
        · exact nomatch hz

theorem loneRun_append (dflt : Config) : ∀ (a : List MEvent) (t : Option Sys) (b : List MEvent),
    loneRun dflt t (a ++ b) = ((loneRun dflt (loneRun dflt t a).1 b).1, (loneRun dflt t a).2 ++ (loneRun dflt (loneRun dflt t a).1 b).2)
  | [], _, _ => rfl
  | e :: a, t, b => by
    simp only [List.cons_append, loneRun]
    rw [loneRun_append dflt a]

theorem loneRun_length (dflt : Config) : ∀ (a : List MEvent) (t : Option Sys), (loneRun dflt t a).2.length = a.length
  | [], _ => rfl
  | e :: a, t => by simp only [loneRun, List.length_cons]; rw [loneRun_length dflt a]

theorem toldLone_append : ∀ (a : List MEvent) (x : List MAns) (b : List MEvent) (y : List MAns), x.length = a.length →
    toldLone (a ++ b) (x ++ y) = toldLone a x ++ toldLone b y
  | [], [], _, _, _ => rfl
  | [], _ :: _, _, _, h => nomatch h
  | _ :: _, [], _, _, h => nomatch h
  | e :: a, z :: x, b, y, h => by
    have ih := toldLone_append a x b y (by simpa using h)
    cases e <;> simp only [List.cons_append, toldLone, ih]

theorem told_cons (e : LEvent) (t : List LEvent) (x : Option MAns) (y : List (Option MAns)) : told (e :: t) (x :: y) = told [e] [x] ++ told t y := by
  cases e <;> cases x <;> rfl

theorem requests_cons (e : LEvent) (t : List LEvent) : requests (e :: t) = requests [e] ++ requests t := by
  cases e <;> rfl

/-- Every history in which no create or restart falls into a delete. -/
theorem life_sim (dflt : Config) : ∀ (es : List LEvent) (s : Life) (t : Option Sys), LRel s t → Apart dflt s es →
    ∃ es', es'.filter MEvent.isRequest = requests es ∧ LRel (s.run dflt es).1 (loneRun dflt t es').1 ∧
      told es (s.run dflt es).2 = toldLone es' (loneRun dflt t es').2
  | [], s, t, h, _ => ⟨[], rfl, h, rfl⟩
  | e :: es, s, t, h, ha => by
    obtain ⟨a, a1, a2, a3⟩ := life_step h dflt e ⟨ha.1, trivial⟩
    obtain ⟨b, b1, b2, b3⟩ := life_sim dflt es _ _ a2 ha.2
    refine ⟨a ++ b, ?_, ?_, ?_⟩
    · rw [List.filter_append, a1, b1, ← requests_cons]
    · rw [loneRun_append]; exact b2
    · simp only [Life.run]
      rw [told_cons, a3, b3, loneRun_append, toldLone_append _ _ _ _ (loneRun_length _ _ _)]

theorem LRel.queue {s : Life} {t : Option Sys} (h : LRel s t) : s.queue = t.map Sys.q := by
  cases t with
  | none => simp only [Life.queue, (h.gone rfl).1, Option.map_none]
  | some y =>
    obtain ⟨k, f, fo, a, b, c, d, e, g, i⟩ := h.there y rfl
    simp only [Life.queue, a, g, Option.map_some]

end Verif.Queue
