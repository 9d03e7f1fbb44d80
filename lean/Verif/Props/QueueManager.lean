import Verif.Proofs.QueueManager
import Verif.Props.Queue

/-!
# Properties C31 and C36: several queues, and their names across a restart
-/

namespace Verif.Queue

/-- Queue names used in the examples: "a", "b", "x", "x.db". -/
def nA : Str := [97]
def nB : Str := [98]
def nX : Str := [120]
def nXdb : Str := [120, 46, 100, 98]

def exMgr : List MEvent :=
  [.create nA none (some 1) 0, .create nB (some 10) none 1, .op nA (.push 1 [10] 0 2), .op nB (.push 2 [20] 0 3),
   .op nA (.consume 5 4), .commit nA 1, .op nB (.consume 5 5)]

/-- "/". -/
abbrev slash : UInt8 := 47

/-! ## C31 -/

/-- C31: whatever the state of the server, a request on queue `m` leaves every other queue - contents, database
and configuration - as it is. -/
theorem C31_independent (dflt : Config) (s : Mgr) {e : MEvent} {m n : Str} (ht : e.target = some m) (hne : m ≠ n) :
    (s.step dflt e).1.view n = s.view n := frame dflt s ht hne

/-- C31: the answer to a request on queue `n`, and what it does to `n`, depend on `n` alone: they are the same
on any two servers that agree on `n`. -/
theorem C31_answers (dflt : Config) (s s' : Mgr) {e : MEvent} {n : Str} (ht : e.target = some n) (h : s.view n = s'.view n) :
    (s.step dflt e).2 = (s'.step dflt e).2 ∧ (s.step dflt e).1.view n = (s'.step dflt e).1.view n := local_ dflt s s' ht h

/-- C31: requests on a queue that does not exist fail (an error, `false`, or no message) and change nothing. -/
theorem C31_missing (dflt : Config) (s : Mgr) {n : Str} (hn : (s.step dflt (.exist n)).2 = .bool false) (o : Op) :
    (s.step dflt (.op n o)).1 = s ∧ (s.step dflt (.op n o)).2 ∈ [.notFound, .bool false, .out (.msgs []), .none] := by
  have hl : mget s.live n = none := by
    simp only [Mgr.step, mhas, MAns.bool.injEq] at hn
    exact Option.not_isSome_iff_eq_none.1 (by rw [hn]; decide)
  simp only [Mgr.step, hl]
  exact ⟨trivial, by cases o <;> simp [missing]⟩

/-- C31: creating a queue that exists changes nothing; deleting and recreating a queue yields an empty queue with the
requested configuration, whatever was in memory or on disk (a queue with a `/` in its name has no files). -/
theorem C31_recreate (dflt : Config) (s : Mgr) (n : Str) (vt mr : Option Nat) (now : Nat) :
    let s' := (s.run dflt [.delete n, .create n vt mr now]).1
    (s'.view n).1 = some ⟨QInner.empty (Config.fromOptions vt mr dflt), []⟩ ∧
    (slash ∉ n → (s'.view n).2 = (some DB.empty, some (Config.fromOptions vt mr dflt))) ∧
    (s'.step dflt (.create n none none now)).1 = s' := by
  intro s'
  have hv : (s'.view n).1 = some ⟨QInner.empty (Config.fromOptions vt mr dflt), []⟩ := by
    show ((s.run dflt [.delete n, .create n vt mr now]).1.view n).1 = _
    simp only [Mgr.run, Mgr.step, mget_mdel, if_true, Mgr.view, Mgr.build, mget_mset, Option.getD_none]
    rfl
  refine ⟨hv, ?_, ?_⟩
  · intro hn
    show ((s.run dflt [.delete n, .create n vt mr now]).1.view n).2 = _
    simp only [Mgr.run, Mgr.step, mget_mdel, if_true, Mgr.view, Mgr.build, put_eq (slash_dbFile hn), put_eq (slash_cfgFile hn), mget_mset,
      Option.getD_none]
  · have h1 : mget s'.live n = _ := hv
    simp only [Mgr.step, h1]

example : (MEvent.op nA (.ack 1)).target = some nA ∧ nA ≠ nB ∧ (Mgr.new.run exCfg exMgr).1.view nB ≠ (none, none, none) ∧
    ((Mgr.new.run exCfg exMgr).1.step exCfg (.op nA (.ack 1))).2 = .out (.bool true) := by decide
example : ((Mgr.new.run exCfg exMgr).1.step exCfg (.exist nX)).2 = .bool false := by decide
example : ((Mgr.new.run exCfg exMgr).1.run exCfg [.delete nA, .create nA none none 9, .op nA (.consume 5 10)]).2 =
    [.ok, .ok, .out (.msgs [])] := by decide

/-! ## C36 -/

/-- C36 is violated for names ending in ".db": the queue "x.db" is gone after a restart, and a queue "x"
that nobody created exists instead. -/
theorem C36_violated : ∃ (dflt : Config) (es : List MEvent), (Mgr.new.run dflt (es ++ [.exist nXdb, .exist nX])).2 =
      [.ok, .out .done, .none, .bool true, .bool false] ∧
    (Mgr.new.run dflt (es ++ [.restart 100, .exist nXdb, .exist nX])).2 = [.ok, .out .done, .none, .none, .bool false, .bool true] :=
  ⟨exCfg, [.create nXdb none none 0, .op nXdb (.push 1 [] 0 1), .commit nXdb 1], by decide⟩

/-- C36 is violated for names with a "/", always: whatever happened before, no queue with such a name is there after a restart. -/
theorem C36_nested_violated (dflt : Config) (es : List MEvent) (n : Str) (hn : slash ∈ n) (now : Nat) :
    (((Mgr.new.run dflt es).1.step dflt (.restart now)).1.step dflt (.exist n)).2 = .bool false := by
  have hf := flat_run dflt es (s := Mgr.new) (by simp [Mgr.new, mkeys])
  simp only [Mgr.step, mhas]
  rw [warm_names dflt now _ hf n hn]
  rfl

/-- Such a queue can be created, a message pushed, and the writer has had its time; it is there before the restart, and after it the queue
and its message are gone. -/
example : (Mgr.new.run exCfg [.create [97, 47, 98] none none 0, .op [97, 47, 98] (.push 1 [] 0 1), .commit [97, 47, 98] 1, .exist [97, 47, 98],
    .restart 100, .exist [97, 47, 98], .op [97, 47, 98] (.push 2 [] 0 1), .create [97, 47, 98] none none 0, .op [97, 47, 98] (.consume 5 9)]).2 =
    [.ok, .out .done, .none, .bool true, .none, .bool false, .notFound, .ok, .out (.msgs [])] := by decide

/-- C36 (and C31 across restarts), for names that do not end in ".db" and have no "/" in them: in every history of creations, deletions,
requests, commits and restarts, each queue gives exactly the answers it would give if it were the only queue
(`loneRun`: created empty with its configuration, deleted, and otherwise the queue of properties C22-C35, restarts
included).  In particular its name and configuration survive a restart. -/
theorem C36_alone_partial (dflt : Config) {es : List MEvent} (hp : PlainNames es) (n : Str) :
    answersFor n es (Mgr.new.run dflt es).2 = (loneRun dflt none (es.filter (MEvent.about n))).2 :=
  (Agrees.run dflt es MgrInv.new (n := n) (r := none) rfl hp).2.1

/-- C36: after a restart exactly the queues exist that existed before. -/
theorem C36_names_partial (dflt : Config) {es : List MEvent} (hp : PlainNames es) (now : Nat) (n : Str) :
    let s := (Mgr.new.run dflt es).1
    ((s.step dflt (.restart now)).1.step dflt (.exist n)).2 = (s.step dflt (.exist n)).2 := by
  intro s
  obtain ⟨h1, _, h3⟩ := Agrees.run dflt es MgrInv.new (n := n) (r := none) rfl hp
  obtain ⟨g1, _⟩ := Agrees.step h3 dflt h1 (.restart now) rfl (by simp [PlainNames])
  have e1 := (Agrees.step h3 dflt h1 (.exist n) (by simp [MEvent.about, MEvent.target]) (by simp [PlainNames])).2
  have h4 := h3.step dflt (.restart now) (by simp [PlainNames])
  have e2 := (Agrees.step h4 dflt g1 (.exist n) (by simp [MEvent.about, MEvent.target]) (by simp [PlainNames])).2
  show ((s.step dflt (.restart now)).1.step dflt (.exist n)).2 = (s.step dflt (.exist n)).2
  rw [show s = (Mgr.new.run dflt es).1 from rfl, e1, e2]
  simp [loneStep]

instance : DecidablePred plainName := fun n => inferInstanceAs (Decidable (¬ dotDb <:+ n ∧ (47 : UInt8) ∉ n))

example : PlainNames (exMgr ++ [.restart 8, .op nB (.ack 2), .exist nB]) := by
  intro e he
  simp only [exMgr, List.cons_append, List.nil_append, List.mem_cons, List.not_mem_nil, or_false] at he
  rcases he with h | h | h | h | h | h | h | h | h | h <;> subst h <;> first | trivial | (show plainName _; decide)
example : answersFor nA (exMgr ++ [.restart 8, .op nA (.consume 5 9)]) (Mgr.new.run exCfg (exMgr ++ [.restart 8, .op nA (.consume 5 9)])).2 =
    [.ok, .out .done, .out (.msgs [⟨1, [10], 0, 1, 2, 104, none, .inFlight 104⟩]), .none, .none,
     .out (.msgs [⟨1, [10], 0, 1, 2, 109, none, .inFlight 109⟩])] := by decide

end Verif.Queue
