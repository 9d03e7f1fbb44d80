import Verif.Proofs.TopicDirs

/-!
# Property C129: which topics there are after a restart
-/

namespace Verif.Dirs

open Verif
open Verif.Paths (slash Simple)

/-- **C129** (partial: all names created and deleted are file names).  Whatever is created, deleted and written, however often the server
stops and starts again: a topic takes messages exactly if it was created and not deleted since, and `exists` says the same. -/
theorem C129_tidy_partial (es : List Ev) (hn : ∀ m, .create m ∈ es ∨ .delete m ∈ es → Simple m) (n : Str) :
    (serves (run {} es) n = true ↔ Alive n es) ∧ (Simple n → (answersExists (run {} es) n = true ↔ Alive n es)) := by
  have hi := inv_run es (fun m hm => simple_neat (hn m hm))
  have hnest : ¬ Nested n es := by
    rintro ⟨r, h⟩
    exact (hn _ (.inl h)).2.2.2 (by simp)
  have h1 : n ∈ (run {} es).topics ↔ Alive n es :=
    ⟨fun h => (hi.topics n h).elim id (fun h => absurd h.2 hnest), fun h => hi.kept n (hn n (.inl h.created)) h⟩
  have h2 : [n] ∈ (run {} es).dirs → Alive n es := fun h => (hi.dirs n h).elim id (fun h => absurd h hnest)
  refine ⟨by simp [serves, h1], fun hs => ?_⟩
  simp only [answersExists, isDir, simple_parts hs, Bool.or_eq_true, decide_eq_true_eq, List.contains_iff_mem]
  constructor
  · rintro (h | h | h)
    · exact h1.1 h
    · cases h
    · exact h2 h
  · exact fun h => .inl (h1.2 h)

/-- **C129** (partial: the topic's name is a file name; the other names may have several parts, none empty, `.` or `..`).  A topic that was created
stays until it is deleted, however often the server starts again. -/
theorem C129_kept_partial (es : List Ev) (hn : ∀ m, .create m ∈ es ∨ .delete m ∈ es → Neat m) (n : Str) (hs : Simple n) (h : Alive n es) :
    serves (run {} es) n = true := by
  simpa [serves] using (inv_run es hn).kept n hs h

/-- **C129** (partial: the names' parts are not empty, `.` or `..`).  A topic that takes messages was created and not deleted since, or some topic was
created in a directory of that name. -/
theorem C129_made_partial (es : List Ev) (hn : ∀ m, .create m ∈ es ∨ .delete m ∈ es → Neat m) (n : Str) (h : serves (run {} es) n = true) :
    Alive n es ∨ Nested n es := by
  have := (inv_run es hn).topics n (by simpa [serves] using h)
  exact this.imp id (·.2)

/-- **C129 is violated** by every topic with a `/` in its name: whatever happened before, it is not there after a restart. -/
theorem C129_nested_violated (es : List Ev) (n : Str) (hn : slash ∈ n) : serves (run {} (es ++ [.restart])) n = false := by
  rw [run_snoc]
  simp only [serves, decide_eq_false_iff_not, mem_restart]
  intro h
  exact flat_run es _ h n (by simp) hn

/-- **C129 is violated** by such names in a second way.  One topic `a/b` is created; after a restart there is a topic `a`, which nobody created;
and although `exists` says that `a/b` is there, it takes no messages. -/
theorem C129_phantom_violated (a b : Str) (ha : Simple a) (hb : Simple b) :
    let es := [.create (a ++ slash :: b), .restart]
    serves (run {} es) a = true ∧ ¬ Alive a es ∧
    answersExists (run {} es) (a ++ slash :: b) = true ∧ serves (run {} es) (a ++ slash :: b) = false := by
  have hneat : Neat (a ++ slash :: b) := by
    intro p hp
    rw [Paths.split_append, Paths.split_simple ha.2.2.2, Paths.split_simple hb.2.2.2] at hp
    simp only [List.cons_append, List.nil_append, List.mem_cons, List.not_mem_nil, or_false] at hp
    rcases hp with rfl | rfl
    · exact ⟨ha.1, ha.2.1, ha.2.2.1⟩
    · exact ⟨hb.1, hb.2.1, hb.2.2.1⟩
  have hp : parts (a ++ slash :: b) = [a, b] := by
    rw [hneat.parts, Paths.split_append, Paths.split_simple ha.2.2.2, Paths.split_simple hb.2.2.2]; rfl
  intro es
  refine ⟨?_, ?_, ?_, C129_nested_violated [.create (a ++ slash :: b)] _ (by simp)⟩
  · simp [es, run, step, serves, hp, makeAll, List.range_succ, entry]
  · intro h
    have := h.created
    simp only [es, List.mem_cons, List.not_mem_nil, or_false, Ev.create.injEq, reduceCtorEq] at this
    have h1 := congrArg List.length this
    simp at h1
  · simp [es, run, step, answersExists, isDir, hp, makeAll, List.range_succ]

/-- **C129 is violated** by the empty name: `exists` says it is there, on every server and at every moment. -/
theorem C129_empty_violated (s : St) : answersExists s [] = true ∧ answersExists s Paths.dot = true ∧ serves {} [] = false := by
  refine ⟨?_, ?_, rfl⟩ <;> simp [answersExists, isDir, parts, Paths.split, Paths.dot, slash, Paths.enter]

/-! ### Cases -/

/-- The topics `a`, `b` and `a/b` are created; `b` is deleted; the server starts again twice. -/
def exNames : List Ev := [.create [97], .create [98], .write [97], .restart, .delete [98], .create [97, 47, 98], .restart, .restart]

example : (∀ m, .create m ∈ exNames.take 5 ∨ .delete m ∈ exNames.take 5 → Simple m) ∧ serves (run {} (exNames.take 5 ++ [.restart])) [97] = true ∧
    serves (run {} (exNames.take 5 ++ [.restart])) [98] = false := by
  refine ⟨?_, by decide, by decide⟩
  intro m hm
  simp [exNames] at hm
  rcases hm with (rfl | rfl) | rfl <;> decide

example : Alive [97] exNames ∧ ¬ Alive [98] exNames := by
  refine ⟨⟨[], exNames.drop 1, rfl, by decide⟩, ?_⟩
  rintro ⟨u, v, h, hv⟩
  have : u.length < 8 := by
    have := congrArg List.length h
    simp [exNames] at this
    omega
  have key : ∀ k, k < 8 → exNames[k]? = some (.create [98]) → .delete [98] ∈ exNames.drop (k + 1) := by decide
  apply hv
  have h1 : exNames[u.length]? = some (.create [98]) := by rw [h]; simp
  have h2 : exNames.drop (u.length + 1) = v := by rw [h]; simp
  rw [← h2]
  exact key _ this h1

example : serves (run {} exNames) [97] = true := by
  refine C129_kept_partial exNames ?_ [97] (by decide) ⟨[], exNames.drop 1, rfl, by decide⟩
  intro m hm
  simp [exNames] at hm
  rcases hm with (rfl | rfl | rfl) | rfl <;> decide

end Verif.Dirs
