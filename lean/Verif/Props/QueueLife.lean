import Verif.Proofs.QueueLife
import Verif.Props.QueueManager

/-!
# Property C79: overlapping requests that create, delete and use one queue
-/

namespace Verif.Queue

/-- C79: as long as no create begins, and the process does not end, while a delete is unanswered, the queue behaves as if the
requests happened one at a time in the order in which they take effect: for every schedule of deletes, storage tasks and requests
that found the queue before it was deleted, there is a history of the one-at-a-time queue with the same requests and restarts that
gives the same answers and leaves the same queue. -/
theorem C79_alone_partial (dflt : Config) {es : List LEvent} (ha : Apart dflt Life.new es) :
    ∃ es', es'.filter MEvent.isRequest = requests es ∧
      (Life.new.run dflt es).1.queue = (loneRun dflt none es').1.map Sys.q ∧
      told es (Life.new.run dflt es).2 = toldLone es' (loneRun dflt none es').2 := by
  obtain ⟨es', h1, h2, h3⟩ := life_sim dflt es _ _ LRel.init ha
  exact ⟨es', h1, h2.queue, h3⟩

theorem Life.run_append (dflt : Config) : ∀ (a : List LEvent) (s : Life) (b : List LEvent),
    s.run dflt (a ++ b) = (((s.run dflt a).1.run dflt b).1, (s.run dflt a).2 ++ ((s.run dflt a).1.run dflt b).2)
  | [], _, _ => rfl
  | e :: a, s, b => by
    simp only [List.cons_append, Life.run]
    rw [Life.run_append dflt a]

theorem Life.run_append_fst (dflt : Config) (a : List LEvent) (s : Life) (b : List LEvent) :
    (s.run dflt (a ++ b)).1 = ((s.run dflt a).1.run dflt b).1 := by rw [Life.run_append]

theorem Apart.split (dflt : Config) : ∀ (a : List LEvent) (s : Life) (b : List LEvent), Apart dflt s (a ++ b) →
    Apart dflt s a ∧ Apart dflt (s.run dflt a).1 b
  | [], _, _, h => ⟨trivial, h⟩
  | _ :: a, _, b, h => ⟨⟨h.1, (Apart.split dflt a _ b h.2).1⟩, (Apart.split dflt a _ b h.2).2⟩

theorem lone_stays (dflt : Config) : ∀ (es : List MEvent), (∀ e ∈ es, ∀ n vt mr now, e ≠ .create n vt mr now) →
    (loneRun dflt none es).1 = none
  | [], _ => rfl
  | e :: es, h => by
    have : (loneStep dflt none e).1 = none := by
      cases e with
      | create n vt mr now => exact absurd rfl (h _ (List.mem_cons_self ..) n vt mr now)
      | _ => rfl
    simp only [loneRun, this]
    exact lone_stays dflt es (fun e he => h e (List.mem_cons_of_mem _ he))

theorem no_create_requests : ∀ (es : List LEvent), (∀ e ∈ es, ∀ vt mr now, e ≠ .create vt mr now) →
    ∀ e ∈ requests es, ∀ n vt mr now, e ≠ .create n vt mr now
  | [], _, _, h => nomatch h
  | x :: es, h, e, he => by
    rw [requests_cons] at he
    rcases List.mem_append.1 he with he | he
    · intro n vt mr now hh
      subst hh
      cases x with
      | create vt mr now => exact absurd rfl (h _ (List.mem_cons_self ..) vt mr now)
      | _ => simp [requests] at he
    · exact no_create_requests es (fun e he => h e (List.mem_cons_of_mem _ he)) e he

/-- C79: a deleted queue stays deleted, across restarts, until it is created again. -/
theorem C79_deleted_partial (dflt : Config) {a b : List LEvent} {r : Nat} (ha : Apart dflt Life.new (a ++ [.delete r] ++ b))
    (hb : ∀ e ∈ b, ∀ vt mr now, e ≠ .create vt mr now) :
    ((Life.new.run dflt (a ++ [.delete r] ++ b)).1.step dflt .exist).2 = some (.bool false) := by
  obtain ⟨h1, h2⟩ := Apart.split dflt (a ++ [.delete r]) _ b ha
  obtain ⟨h0, h3⟩ := Apart.split dflt a _ [.delete r] h1
  obtain ⟨ea, _, ra, _⟩ := life_sim dflt a _ _ LRel.init h0
  obtain ⟨ed, hd, rd, _⟩ := life_sim dflt [.delete r] _ _ ra h3
  have hnone : (loneRun dflt (loneRun dflt none ea).1 ed).1 = none := by
    have : ∀ (l : List MEvent) (t : Option Sys), l.filter MEvent.isRequest = [.delete []] → (loneRun dflt t l).1 = none := by
      intro l
      induction l with
      | nil => intro t h; exact nomatch h
      | cons e l ih =>
        intro t h
        by_cases hr : e.isRequest = true
        · rw [List.filter_cons_of_pos hr] at h
          injection h with h h'
          subst h
          simp only [loneRun, loneStep]
          refine lone_stays dflt l ?_
          intro e he n vt mr now hh
          subst hh
          have : MEvent.create n vt mr now ∈ l.filter MEvent.isRequest := List.mem_filter.2 ⟨he, rfl⟩
          rw [h'] at this; exact nomatch this
        · rw [List.filter_cons_of_neg hr] at h
          simp only [loneRun]
          exact ih _ h
    exact this ed _ hd
  rw [← Life.run_append_fst] at rd
  rw [hnone] at rd
  obtain ⟨eb, hb', rb, _⟩ := life_sim dflt b _ _ rd h2
  have hno : (loneRun dflt none eb).1 = none := by
    refine lone_stays dflt eb ?_
    intro e he n vt mr now hh
    subst hh
    have : MEvent.create n vt mr now ∈ eb.filter MEvent.isRequest := List.mem_filter.2 ⟨he, rfl⟩
    rw [hb'] at this
    exact no_create_requests b hb _ this n vt mr now rfl
  rw [hno, ← Life.run_append_fst] at rb
  simp only [Life.step, (rb.gone rfl).1, Option.isSome]

/-- C79: a queue created when there is none, and no delete is unanswered, is empty and has the requested configuration, whatever
queues of that name there were before. -/
theorem C79_created_partial (dflt : Config) {es : List LEvent} (ha : Apart dflt Life.new es) {vt mr : Option Nat} {now : Nat}
    (hd : (Life.new.run dflt es).1.deletes = []) (hn : ((Life.new.run dflt es).1.step dflt .exist).2 = some (.bool false)) :
    ((Life.new.run dflt es).1.step dflt (.create vt mr now)).1.queue = some (QInner.empty (Config.fromOptions vt mr dflt)) := by
  obtain ⟨es', _, h, _⟩ := life_sim dflt es _ _ LRel.init ha
  obtain ⟨e', he, h', _⟩ := life_step h dflt (.create vt mr now) ⟨hd, trivial⟩
  generalize (Life.new.run dflt es).1 = s at *
  have hl : s.live = none := by
    simp only [Life.step, Option.some.injEq, MAns.bool.injEq] at hn
    exact Option.not_isSome_iff_eq_none.1 (by rw [hn]; decide)
  have hp : s.path = none := by
    cases ht : (loneRun dflt none es').1 with
    | some y =>
      obtain ⟨k, f, fo, a, _⟩ := h.there y ht
      rw [hl] at a; exact nomatch a
    | none =>
      cases hp : s.path with
      | none => rfl
      | some f =>
        obtain ⟨r, st, hr, _⟩ := (h.gone ht).2.1 (by rw [hp]; rfl)
        rw [hd] at hr; exact nomatch hr
  simp only [Life.step, hl]
  have hb := build_new (s := { s with live := none }) (Config.fromOptions vt mr dflt) now hp
  simp only at hb
  rw [hb]
  simp only [Life.queue, mget_mset_same, Option.map_some]

/-- Two deletes overlap; the storage task opens its file only after the other delete has removed it; a request that found the old
queue comes late; the queue is created again and used; the process restarts. -/
def exLife : List LEvent :=
  [.create none (some 1) 0, .call (.push 1 [10] 0 1), .delete 7, .late 0 (.push 9 [90] 0 1), .delete 8, .deleteOn 8, .deleteOn 8, .deleteOn 7, .opens 0,
   .late 0 (.push 2 [20] 0 2), .deleteOn 7, .commits 0 5, .exist, .deleteOn 7, .deleteOn 7, .deleteOn 7, .create (some 5) none 3, .late 0 (.pop 3), .call (.push 3 [30] 0 4),
   .opens 1, .commits 1 1, .commits 0 1, .call (.push 4 [40] 0 5), .restart 6, .call (.consume 9 6), .exist]

/-- The messages an answer hands out. -/
def MAns.handed : Option MAns → List Id
  | some (.out o) => o.delivered
  | _ => []

example : Apart exCfg Life.new exLife ∧ (told exLife (Life.new.run exCfg exLife).2).map (fun a => MAns.handed (some a)) =
    [[], [], [], [], [], [], [3], []] ∧ (Life.new.run exCfg exLife).2.getLast? = some (some (.bool true)) := by decide
example : Apart exCfg Life.new (exLife.take 3 ++ [.delete 8] ++ [.deleteOn 8, .deleteOn 8, .opens 0, .commits 0 5, .deleteOn 7, .deleteOn 7, .deleteOn 7, .deleteOn 7, .restart 9]) := by decide
example : Apart exCfg Life.new (exLife.take 16) ∧ (Life.new.run exCfg (exLife.take 16)).1.deletes = [] ∧
    ((Life.new.run exCfg (exLife.take 16)).1.step exCfg .exist).2 = some (.bool false) := by decide

/-- C79 is violated when a create overlaps a delete of the same queue: the create is answered, the rest of the delete removes the files
of the new queue.  Messages pushed to the new queue afterwards, answered and committed by its storage task, are lost: after the restart
the queue does not exist. -/
theorem C79_violated : ∃ (dflt : Config) (a b : List LEvent),
    (Life.new.run dflt (a ++ b)).1.deletes = [] ∧
    (Life.new.run dflt (a ++ b)).2 = [some .ok, none, none, none, none, some .ok, none, none, some .ok, some (.bool true), some (.out .done), none] ∧
    b = [.exist, .call (.push 1 [10] 0 9), .commits 1 1] ∧
    (Life.new.run dflt (a ++ b)).1.queue.map (fun q => q.state.registry.map (·.1)) = some [1] ∧
    (Life.new.run dflt (a ++ b ++ [.restart 100])).1.queue = none :=
  ⟨exCfg, [.create none none 0, .delete 7, .deleteOn 7, .opens 0, .deleteOn 7, .create none none 5, .opens 1, .deleteOn 7, .deleteOn 7],
    [.exist, .call (.push 1 [10] 0 9), .commits 1 1], by decide⟩

/-- C79 is violated when a create overlaps a delete: the new queue holds the messages of the deleted one. -/
theorem C79_violated_old : ∃ (dflt : Config) (es : List LEvent),
    (Life.new.run dflt es).2 = [some .ok, some (.out .done), none, none, none, some .ok] ∧
    MAns.handed ((Life.new.run dflt es).1.step dflt (.call (.pop 9))).2 = [1] ∧
    es = [.create none none 0, .call (.push 1 [10] 0 1), .opens 0, .commits 0 1, .delete 7, .create none none 5] :=
  ⟨exCfg, [.create none none 0, .call (.push 1 [10] 0 1), .opens 0, .commits 0 1, .delete 7, .create none none 5], by decide⟩

/-- C79 is violated even for a client that creates the queue after its own delete has been answered, when another delete of the queue is
still on its way: the second delete does not wait for the first one. -/
theorem C79_violated_two : ∃ (dflt : Config) (es : List LEvent),
    (Life.new.run dflt es).2 = [some .ok, none, none, none, some .ok, some .ok, none, none, none, none, some .ok, some (.bool true)] ∧
    es = [.create none none 0, .delete 7, .delete 8, .deleteOn 8, .deleteOn 8, .create none none 5, .opens 0, .deleteOn 7, .deleteOn 7, .deleteOn 7, .deleteOn 7, .exist] ∧
    (Life.new.run dflt (es ++ [.restart 100])).1.queue = none :=
  ⟨exCfg, [.create none none 0, .delete 7, .delete 8, .deleteOn 8, .deleteOn 8, .create none none 5, .opens 0, .deleteOn 7, .deleteOn 7, .deleteOn 7, .deleteOn 7, .exist], by decide⟩

end Verif.Queue
