import Verif.Spec.TopicDirs
import Verif.Proofs.Paths
import Verif.Proofs.SdkConnection

/-! # Proofs: directories of topics -/

namespace Verif.Dirs

open Verif
open Verif.Paths (split slash)

/-! ### Names and their parts -/

theorem split_parts : ∀ {n p : Str}, p ∈ split n → slash ∉ p := by
  intro n
  induction n with
  | nil => intro p h; simp [split] at h; subst h; simp
  | cons b s ih =>
    intro p h
    simp only [split] at h
    split at h
    · rcases List.mem_cons.1 h with rfl | h
      · simp
      · exact ih h
    · next hb =>
      cases hs : split s with
      | nil => exact absurd hs (Paths.split_ne_nil s)
      | cons c cs =>
        rw [hs] at h
        simp only [List.mem_cons] at h
        rcases h with rfl | h
        · simp only [List.mem_cons, not_or]
          exact ⟨fun e => hb e.symm, ih (by rw [hs]; simp)⟩
        · exact ih (by rw [hs]; simp [h])

/-- A name is its first part, or goes on with a separator. -/
theorem split_head {n x : Str} {r : List Str} (h : split n = x :: r) : n = x ∧ r = [] ∨ ∃ t, n = x ++ slash :: t := by
  induction n generalizing x r with
  | nil => simp [split] at h; exact .inl ⟨h.1.symm, h.2⟩
  | cons b s ih =>
    simp only [split] at h
    split at h
    · next hb => injection h with h1 h2; exact .inr ⟨s, by rw [← h1, hb]; rfl⟩
    · cases hs : split s with
      | nil => exact absurd hs (Paths.split_ne_nil s)
      | cons c cs =>
        rw [hs] at h
        injection h with h1 h2
        rcases ih hs with ⟨e1, e2⟩ | ⟨t, e⟩
        · exact .inl ⟨by rw [← h1, e1], by rw [← h2, e2]⟩
        · exact .inr ⟨t, by rw [← h1, e]; rfl⟩

theorem split_single {n x : Str} (h : split n = [x]) : n = x := by
  rcases split_head h with h' | ⟨t, e⟩
  · exact h'.1
  · rw [e, Paths.split_append] at h
    have h1 := congrArg List.length h
    have h2 : 0 < (split x).length := List.length_pos_iff.2 (Paths.split_ne_nil _)
    have h3 : 0 < (split t).length := List.length_pos_iff.2 (Paths.split_ne_nil _)
    simp only [List.length_append, List.length_singleton] at h1
    omega

theorem enter_all : ∀ (ps d : List Str), (∀ p ∈ ps, p ≠ [] ∧ p ≠ Paths.dot ∧ p ≠ Paths.dotdot) → ps.foldl Paths.enter d = d ++ ps
  | [], d, _ => by simp
  | p :: ps, d, h => by
    obtain ⟨h1, h2, h3⟩ := h p (by simp)
    rw [List.foldl_cons, enter_all ps _ (fun q hq => h q (by simp [hq]))]
    simp [Paths.enter, h1, h2, h3]

theorem Neat.parts {n : Str} (h : Neat n) : parts n = split n := by
  unfold Dirs.parts
  rw [enter_all _ _ h]; rfl

theorem simple_neat {n : Str} (h : Paths.Simple n) : Neat n := by
  intro p hp
  rw [Paths.split_simple h.2.2.2, List.mem_singleton] at hp
  subst hp
  exact ⟨h.1, h.2.1, h.2.2.1⟩

theorem simple_parts {n : Str} (h : Paths.Simple n) : parts n = [n] := by
  rw [(simple_neat h).parts, Paths.split_simple h.2.2.2]

/-- Parts have no separators, whatever the name is. -/
theorem enter_flat : ∀ (ps d : List Str), (∀ p ∈ ps, slash ∉ p) → (∀ p ∈ d, slash ∉ p) → ∀ p ∈ ps.foldl Paths.enter d, slash ∉ p
  | [], _, _, h => h
  | q :: ps, d, h1, h2 => by
    rw [List.foldl_cons]
    apply enter_flat ps _ (fun p hp => h1 p (by simp [hp]))
    intro p hp
    unfold Paths.enter at hp
    split at hp
    · exact h2 p hp
    · split at hp
      · exact h2 p (List.dropLast_subset _ hp)
      · rcases List.mem_append.1 hp with hp | hp
        · exact h2 p hp
        · rw [List.mem_singleton] at hp; subst hp; exact h1 _ (by simp)

theorem parts_flat (n : Str) : ∀ p ∈ parts n, slash ∉ p := enter_flat _ _ (fun _ h => split_parts h) (by simp)

theorem single_prefix {x : Str} {p : List Str} : [x] <+: p ↔ ∃ r, p = x :: r := by
  constructor
  · rintro ⟨t, rfl⟩; exact ⟨t, rfl⟩
  · rintro ⟨r, rfl⟩; exact ⟨r, rfl⟩

/-- The directory made for a name without separators. -/
theorem parts_prefix {m n : Str} (hm : slash ∉ m) (h : [n] <+: parts m) : m = n := by
  obtain ⟨r, hr⟩ := single_prefix.1 h
  unfold parts at hr
  rw [Paths.split_simple hm, List.foldl_cons, List.foldl_nil] at hr
  unfold Paths.enter at hr
  split at hr
  · cases hr
  · split at hr
    · cases hr
    · injection hr

/-! ### Directories -/

theorem mem_makeAll {dirs : List (List Str)} {p d : List Str} : d ∈ makeAll dirs p ↔ (d ≠ [] ∧ d <+: p) ∨ d ∈ dirs := by
  unfold makeAll
  rw [List.mem_append]
  refine or_congr ?_ Iff.rfl
  simp only [List.mem_map, List.mem_range]
  constructor
  · rintro ⟨k, hk, rfl⟩
    refine ⟨fun h => ?_, List.take_prefix _ _⟩
    have := congrArg List.length h
    rw [List.length_take, List.length_nil] at this
    omega
  · rintro ⟨h1, t, rfl⟩
    have h2 : 0 < d.length := List.length_pos_iff.2 h1
    refine ⟨d.length - 1, by simp; omega, ?_⟩
    rw [Nat.sub_add_cancel h2]
    simp

theorem mem_restart {s : St} {n : Str} : n ∈ (step s .restart).topics ↔ [n] ∈ s.dirs := by
  simp only [step, List.mem_filterMap]
  constructor
  · rintro ⟨d, hd, he⟩
    unfold entry at he
    split at he
    · injection he with he; subst he; exact hd
    · cases he
  · intro h; exact ⟨[n], h, rfl⟩

/-- No directory has a separator in its name. -/
theorem flat_step {s : St} (h : ∀ d ∈ s.dirs, ∀ p ∈ d, slash ∉ p) (e : Ev) : ∀ d ∈ (step s e).dirs, ∀ p ∈ d, slash ∉ p := by
  have hm : ∀ n, ∀ d ∈ makeAll s.dirs (parts n), ∀ p ∈ d, slash ∉ p := by
    intro n d hd p hp
    rcases mem_makeAll.1 hd with ⟨_, hd⟩ | hd
    · exact parts_flat n p (hd.subset hp)
    · exact h d hd p hp
  cases e with
  | create n =>
    simp only [step]
    split
    · exact h
    · exact hm n
  | delete n =>
    simp only [step]
    split
    · intro d hd; exact h d ((List.mem_filter.1 hd).1)
    · exact h
  | write n =>
    simp only [step]
    split
    · exact hm n
    · exact h
  | restart => exact h

theorem run_snoc (s : St) (es : List Ev) (e : Ev) : run s (es ++ [e]) = step (run s es) e := by simp [run]

theorem flat_run (es : List Ev) : ∀ d ∈ (run {} es).dirs, ∀ p ∈ d, slash ∉ p := by
  induction es using Sdk.snoc_ind with
  | h0 => intro d hd; simp [run] at hd
  | h1 es e ih => rw [run_snoc]; exact flat_step ih e

/-! ### Which topics there should be -/

theorem alive_snoc {n : Str} {es : List Ev} {e : Ev} : Alive n (es ++ [e]) ↔ e = .create n ∨ (Alive n es ∧ e ≠ .delete n) := by
  constructor
  · rintro ⟨u, v, h, hv⟩
    rcases List.eq_nil_or_concat v with rfl | ⟨v', b, rfl⟩
    · obtain ⟨_, h2⟩ := List.append_inj' h rfl
      injection h2 with h2
      exact .inl h2
    · rw [List.concat_eq_append] at h hv
      have h' : es ++ [e] = (u ++ .create n :: v') ++ [b] := by rw [h]; simp
      obtain ⟨h1, h2⟩ := List.append_inj' h' rfl
      injection h2 with h2
      subst h2
      simp only [List.mem_append, List.mem_singleton, not_or] at hv
      exact .inr ⟨⟨u, v', h1, hv.1⟩, fun h => hv.2 h.symm⟩
  · rintro (rfl | ⟨⟨u, v, rfl, hv⟩, he⟩)
    · exact ⟨es, [], rfl, by simp⟩
    · exact ⟨u, v ++ [e], by simp, by simp [hv]; exact fun h => he h.symm⟩

theorem Nested.snoc {n : Str} {es : List Ev} (h : Nested n es) (e : Ev) : Nested n (es ++ [e]) := by
  obtain ⟨r, h⟩ := h
  exact ⟨r, by simp [h]⟩

theorem Alive.created {n : Str} {es : List Ev} (h : Alive n es) : .create n ∈ es := by
  obtain ⟨u, v, rfl, _⟩ := h; simp

/-- What the directories and topics of a neat history are. -/
structure Inv (es : List Ev) (s : St) : Prop where
  kept : ∀ n, Paths.Simple n → Alive n es → n ∈ s.topics
  backed : ∀ n, Paths.Simple n → n ∈ s.topics → [n] ∈ s.dirs
  dirs : ∀ n, [n] ∈ s.dirs → Alive n es ∨ Nested n es
  topics : ∀ n, n ∈ s.topics → Alive n es ∨ (slash ∉ n ∧ Nested n es)

/-- The directory made for a name, directly in the data directory. -/
theorem made_top {m n : Str} (hm : Neat m) (h : [n] <+: parts m) : m = n ∨ ∃ r, m = n ++ slash :: r := by
  rw [hm.parts] at h
  obtain ⟨r, hr⟩ := single_prefix.1 h
  rcases split_head hr with ⟨h, _⟩ | h
  · exact .inl h
  · exact .inr h

theorem Inv.step {es : List Ev} {s : St} (h : Inv es s) (hf : ∀ d ∈ s.dirs, ∀ p ∈ d, slash ∉ p) {e : Ev} (hn : ∀ m, .create m ∈ es ++ [e] ∨ .delete m ∈ es ++ [e] → Neat m) :
    Inv (es ++ [e]) (step s e) := by
  cases e with
  | create m =>
    have hm : Neat m := hn m (.inl (by simp))
    have lift : ∀ n, Alive n es → Alive n (es ++ [Ev.create m]) := fun n ha => alive_snoc.2 (.inr ⟨ha, by simp⟩)
    simp only [Dirs.step]
    by_cases ht : m ∈ s.topics
    · rw [if_pos ht]
      refine ⟨?_, h.backed, fun n hd => (h.dirs n hd).imp (lift n) (·.snoc _), fun n hd => (h.topics n hd).imp (lift n) (And.imp_right (·.snoc _))⟩
      intro n hs ha
      rcases alive_snoc.1 ha with he | ⟨ha, _⟩
      · injection he with he
        subst he
        exact ht
      · exact h.kept n hs ha
    · rw [if_neg ht]
      refine ⟨?_, ?_, ?_, ?_⟩
      · intro n hs ha
        rcases alive_snoc.1 ha with he | ⟨ha, _⟩
        · injection he with he
          subst he
          simp
        · exact List.mem_cons_of_mem _ (h.kept n hs ha)
      · intro n hs hd
        rw [mem_makeAll]
        rcases List.mem_cons.1 hd with rfl | hd
        · exact .inl ⟨by simp, by rw [simple_parts hs]; exact List.prefix_refl _⟩
        · exact .inr (h.backed n hs hd)
      · intro n hd
        rcases mem_makeAll.1 hd with ⟨_, hd⟩ | hd
        · rcases made_top hm hd with rfl | ⟨r, rfl⟩
          · exact .inl (alive_snoc.2 (.inl rfl))
          · exact .inr ⟨r, by simp⟩
        · exact (h.dirs n hd).imp (lift n) (·.snoc _)
      · intro n hd
        rcases List.mem_cons.1 hd with rfl | hd
        · exact .inl (alive_snoc.2 (.inl rfl))
        · exact (h.topics n hd).imp (lift n) (And.imp_right (·.snoc _))
  | delete m =>
    have hm : Neat m := hn m (.inr (by simp))
    have lift : ∀ n, n ≠ m → Alive n es → Alive n (es ++ [Ev.delete m]) :=
      fun n hne ha => alive_snoc.2 (.inr ⟨ha, fun he => hne (by injection he with he; exact he.symm)⟩)
    have hgone : ∀ d, d ∈ (Dirs.step s (.delete m)).dirs → d ∈ s.dirs ∧ (d = parts m → False) := by
      intro d hd
      simp only [Dirs.step] at hd
      split at hd
      · obtain ⟨h1, h2⟩ := List.mem_filter.1 hd
        refine ⟨h1, fun he => ?_⟩
        subst he
        have : (parts m).isPrefixOf (parts m) = true := List.isPrefixOf_iff_prefix.2 (List.prefix_refl _)
        simp [this] at h2
      · next hx =>
        refine ⟨hd, fun he => hx (.inr ?_)⟩
        subst he
        simp [isDir, hd]
    refine ⟨?_, ?_, ?_, ?_⟩
    · intro n hs ha
      rcases alive_snoc.1 ha with he | ⟨ha, hne⟩
      · cases he
      · simp only [Dirs.step, List.mem_filter, decide_eq_true_eq]
        exact ⟨h.kept n hs ha, fun he => hne (by rw [he])⟩
    · intro n hs hd
      simp only [Dirs.step, List.mem_filter, decide_eq_true_eq] at hd
      simp only [Dirs.step]
      split
      · refine List.mem_filter.2 ⟨h.backed n hs hd.1, ?_⟩
        simp only [Bool.not_eq_true', Bool.eq_false_iff, ne_eq]
        intro hp
        have hp := List.isPrefixOf_iff_prefix.1 hp
        rw [hm.parts] at hp
        obtain ⟨t, ht⟩ := hp
        cases hsp : split m with
        | nil => exact Paths.split_ne_nil m hsp
        | cons x r =>
          rw [hsp] at ht
          injection ht with h1 h2
          obtain ⟨h3, _⟩ := List.append_eq_nil_iff.1 h2
          subst h1 h3
          exact hd.2 (split_single hsp).symm
      · exact h.backed n hs hd.1
    · intro n hd
      obtain ⟨h1, h2⟩ := hgone _ hd
      rcases h.dirs n h1 with ha | ha
      · by_cases hnm : n = m
        · subst hnm
          exfalso
          apply h2
          rw [hm.parts, Paths.split_simple (hf [n] h1 n (by simp))]
        · exact .inl (lift n hnm ha)
      · exact .inr (ha.snoc _)
    · intro n hd
      simp only [Dirs.step, List.mem_filter, decide_eq_true_eq] at hd
      exact (h.topics n hd.1).imp (lift n hd.2) (And.imp_right (·.snoc _))
  | write m =>
    have lift : ∀ n, Alive n es → Alive n (es ++ [Ev.write m]) := fun n ha => alive_snoc.2 (.inr ⟨ha, by simp⟩)
    have kept : ∀ n, Paths.Simple n → Alive n (es ++ [Ev.write m]) → n ∈ s.topics := by
      intro n hs ha
      rcases alive_snoc.1 ha with he | ⟨ha, _⟩
      · cases he
      · exact h.kept n hs ha
    have topics : ∀ n, n ∈ s.topics → Alive n (es ++ [Ev.write m]) ∨ (slash ∉ n ∧ Nested n (es ++ [Ev.write m])) :=
      fun n hd => (h.topics n hd).imp (lift n) (And.imp_right (·.snoc _))
    simp only [Dirs.step]
    split
    · next ht =>
      refine ⟨kept, fun n hs hd => mem_makeAll.2 (.inr (h.backed n hs hd)), ?_, topics⟩
      intro n hd
      rcases mem_makeAll.1 hd with ⟨_, hd⟩ | hd
      · rcases h.topics m ht with ha | ⟨hsl, ha⟩
        · rcases made_top (hn m (.inl (by simp [ha.created]))) hd with rfl | ⟨r, rfl⟩
          · exact .inl (lift m ha)
          · exact .inr ⟨r, by simp [ha.created]⟩
        · have : m = n := by
            have hpm := parts_prefix hsl hd
            exact hpm
          subst this
          exact .inr (ha.snoc _)
      · exact (h.dirs n hd).imp (lift n) (·.snoc _)
    · exact ⟨kept, h.backed, fun n hd => (h.dirs n hd).imp (lift n) (·.snoc _), topics⟩
  | restart =>
    have lift : ∀ n, Alive n es → Alive n (es ++ [Ev.restart]) := fun n ha => alive_snoc.2 (.inr ⟨ha, by simp⟩)
    have dirs : ∀ n, [n] ∈ s.dirs → Alive n (es ++ [Ev.restart]) ∨ Nested n (es ++ [Ev.restart]) :=
      fun n hd => (h.dirs n hd).imp (lift n) (·.snoc _)
    refine ⟨?_, fun n _ hd => mem_restart.1 hd, dirs, ?_⟩
    · intro n hs ha
      rcases alive_snoc.1 ha with he | ⟨ha, _⟩
      · cases he
      · exact mem_restart.2 (h.backed n hs (h.kept n hs ha))
    · intro n hd
      have hd := mem_restart.1 hd
      exact (dirs n hd).imp id (fun hx => ⟨hf [n] hd n (by simp), hx⟩)

theorem inv_run (es : List Ev) (hn : ∀ m, .create m ∈ es ∨ .delete m ∈ es → Neat m) : Inv es (run {} es) := by
  induction es using Sdk.snoc_ind with
  | h0 =>
    refine ⟨?_, ?_, ?_, ?_⟩
    · rintro n _ ⟨u, v, h, _⟩; cases u <;> cases h
    · intro n _ h; simp [run] at h
    · intro n h; simp [run] at h
    · intro n h; simp [run] at h
  | h1 es e ih =>
    rw [run_snoc]
    exact (ih (fun m hm => hn m (by simp; exact hm.imp .inl .inl))).step (flat_run es) hn

end Verif.Dirs
