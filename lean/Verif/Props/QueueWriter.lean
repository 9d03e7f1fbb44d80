import Verif.Proofs.QueueFaults
import Verif.Props.QueueStore

/-!
# Properties C77 and C78: the queue's storage task, crashes and storage failures
-/

namespace Verif.Queue

open Spec.Queue (Item Dead Q Core Req Ans)

/-! ## C77 -/

/-- C77: as long as no statement and no commit fails (transactions may fail to start), the storage task does what the
properties C32-C35 assume: for every batch size and every schedule of the task there is a history with the same requests
and restarts in which the task commits operations one by one in the order in which they were sent, with the same
answers, the same queue and the same database. -/
theorem C77_refines_partial (cfg : Config) (size : Nat) {es : List KEvent} (hc : Clean es) :
    let s := ((WSys.new cfg).run size es)
    ∃ es', es'.filter Event.client = clientPart es ∧ ((Sys.new cfg).run es').1.q = s.1.q ∧ ((Sys.new cfg).run es').1.db = s.1.db ∧
      ((Sys.new cfg).run es').2.filterMap (fun o => o) = s.2.filterMap (fun o => o) := by
  intro s
  obtain ⟨es', h1, h2, _, h4⟩ := writer_sim size es (WSys.new cfg) hc
  exact ⟨es', h1, congrArg Sys.q h2, congrArg Sys.db h2, h4⟩

/-- C77: what has been answered is durable after the next flush.  A history is cut into `es` and `a ++ [tick] ++ b`.  When
during `a` the task receives as often as there were operations in its channel at the end of `es`, and the flush of the
timer works, then a crash at the end loses nothing of `es`: after the restart every message is where a restart from some
later moment (`es ++ c`) puts it, or from the moment just after the next request. -/
theorem C77_durable_partial (cfg : Config) (size : Nat) {es a b : List KEvent} {r : Outcome}
    (hc : Clean (es ++ (a ++ [.tick r] ++ b))) (hr : r.good = true) (hv : ValidHist (clientPart (es ++ (a ++ [.tick r] ++ b))))
    (hn : NoRestart (a ++ b)) (hrec : ((WSys.new cfg).run size es).1.chan.length ≤ receives a)
    {now : Nat} (hnow : lastStart (clientPart es) ≤ now) :
    let q' := ((WSys.new cfg).run size (es ++ (a ++ [.tick r] ++ b) ++ [.restart now])).1.q
    ∃ c d, a ++ [.tick r] ++ b = c ++ d ∧ ∀ id,
      place q' id = (place ((WSys.new cfg).run size (es ++ c)).1.q id).afterRestart now ∨
      ∃ o d', d = .op o :: d' ∧ place q' id = (place ((WSys.new cfg).run size (es ++ c ++ [.op o])).1.q id).afterRestart now := by
  intro q'
  have hnr : NoRestart (a ++ [.tick r] ++ b) := by
    intro e he now
    rcases List.mem_append.1 he with he | he
    · rcases List.mem_append.1 he with he | he
      · exact hn e (List.mem_append_left _ he) now
      · rw [List.mem_singleton.1 he]; exact fun hh => nomatch hh
    · exact hn e (List.mem_append_right _ he) now
  have hset := settled size (s := ((WSys.new cfg).run size es).1) (a := a) (b := b) hc.right hr hn hrec
  generalize hes2 : a ++ [.tick r] ++ b = es2 at *
  obtain ⟨es', x1, x2, x3, x4⟩ := writer_sim size es (WSys.new cfg) hc.left
  obtain ⟨es2', y1, y2, y3, y4⟩ := writer_sim size es2 ((WSys.new cfg).run size es).1 hc.right
  have habs : (WSys.new cfg).abs = Sys.new cfg := rfl
  rw [habs] at x2 x3
  rw [← x2] at y2 y3
  have hv' : ValidHist (es' ++ es2') := by
    refine valid_client ?_
    rw [List.filter_append, x1, y1, ← clientPart_append]; exact hv
  have hn' : noRestart es2' := noRestart_client (by rw [y1]; exact noRestart_part hnr)
  have hnow' : lastStart es' ≤ now := by rw [← lastStart_client, x1]; exact hnow
  obtain ⟨c', d', h1, h2⟩ := C33_crash cfg hv' hn' hnow' (by
    rw [Sys.run_append, y2, y3]; exact hset)
  have hq' : ((Sys.new cfg).run (es' ++ es2' ++ [.restart now])).1.q = q' := by
    simp only [q', hes2]
    rw [Sys.run_append, Sys.run_append, y2, WSys.run_append, WSys.run_append]
    rfl
  rw [hq'] at h2
  have hcp : clientPart es2 = c'.filter Event.client ++ d'.filter Event.client := by
    rw [← y1, h1, List.filter_append]
  obtain ⟨c, d, k1, k2, k3⟩ := cut_client es2 _ _ hcp
  have hnc : NoRestart c := fun e he => hnr e (by rw [k1]; exact List.mem_append_left _ he)
  have hnc' : noRestart c' := fun e he => hn' e (by rw [h1]; exact List.mem_append_left _ he)
  have hpl : ((Sys.new cfg).run (es' ++ c')).1.q = ((WSys.new cfg).run size (es ++ c)).1.q := by
    rw [Sys.run_append, WSys.run_append, (Sys.run_ops c' hnc' _).1, WSys.run_ops size c hnc, k2, opsOf_client, x2]
    rfl
  refine ⟨c, d, k1, ?_⟩
  intro id
  rcases h2 id with h2 | ⟨o, d'', h3, h2⟩
  · left; rw [h2, hpl]
  · right
    obtain ⟨dd, hdd⟩ := k3 o (d''.filter Event.client) (by rw [h3]; rfl)
    refine ⟨o, dd, hdd, ?_⟩
    rw [h2, Sys.run_append, WSys.run_append]
    simp only [Sys.run, WSys.run, Sys.step, WSys.step]
    rw [hpl]

/-- C77: an acknowledged message does not come back, once its acknowledgement has been received by the task and flushed. -/
theorem C77_acked_partial (cfg : Config) (size : Nat) {es a b : List KEvent} {r : Outcome} {id : Id}
    (hc : Clean (es ++ [.op (.ack id)] ++ (a ++ [.tick r] ++ b))) (hr : r.good = true)
    (hv : ValidHist (clientPart (es ++ [.op (.ack id)] ++ (a ++ [.tick r] ++ b))))
    (hn : NoRestart (a ++ b)) (hrec : ((WSys.new cfg).run size (es ++ [.op (.ack id)])).1.chan.length ≤ receives a)
    (hack : (step ((WSys.new cfg).run size es).1.q (.ack id)).2.1 = .bool true)
    {now : Nat} (hnow : lastStart (clientPart es) ≤ now) :
    place ((WSys.new cfg).run size (es ++ [.op (.ack id)] ++ (a ++ [.tick r] ++ b) ++ [.restart now])).1.q id = .gone := by
  have hnr : NoRestart (a ++ [.tick r] ++ b) := by
    intro e he now
    rcases List.mem_append.1 he with he | he
    · rcases List.mem_append.1 he with he | he
      · exact hn e (List.mem_append_left _ he) now
      · rw [List.mem_singleton.1 he]; exact fun hh => nomatch hh
    · exact hn e (List.mem_append_right _ he) now
  have hset := settled size (s := ((WSys.new cfg).run size (es ++ [.op (.ack id)])).1) (a := a) (b := b) hc.right hr hn hrec
  generalize hes2 : a ++ [.tick r] ++ b = es2 at *
  obtain ⟨es', x1, x2, x3, x4⟩ := writer_sim size es (WSys.new cfg) hc.left.left
  obtain ⟨es2', y1, y2, y3, y4⟩ := writer_sim size es2 ((WSys.new cfg).run size (es ++ [.op (.ack id)])).1 hc.right
  have habs : (WSys.new cfg).abs = Sys.new cfg := rfl
  rw [habs] at x2 x3
  have hone : ((WSys.new cfg).run size (es ++ [.op (.ack id)])).1.abs = ((Sys.new cfg).run (es' ++ [.op (.ack id)])).1 := by
    rw [Sys.run_append, WSys.run_append, x2]
    simp [WSys.run, WSys.step, Sys.run, Sys.step, WSys.abs]
  rw [hone] at y2 y3
  have hcl : (es' ++ [Event.op (.ack id)]).filter Event.client = clientPart (es ++ [.op (.ack id)]) := by
    rw [List.filter_append, x1, clientPart_append]; rfl
  have hv' : ValidHist (es' ++ [.op (.ack id)] ++ es2') := by
    refine valid_client ?_
    rw [List.filter_append, hcl, y1, ← clientPart_append]; exact hv
  have hn' : noRestart es2' := noRestart_client (by rw [y1]; exact noRestart_part hnr)
  have hnow' : lastStart es' ≤ now := by rw [← lastStart_client, x1]; exact hnow
  have hq : ((Sys.new cfg).run es').1.q = ((WSys.new cfg).run size es).1.q := congrArg Sys.q x2
  have := C33_ack_not_undone cfg hv' hn' hnow' (by rw [hq]; exact hack) (by
    rw [Sys.run_append _ es2', y2, y3]; exact hset)
  rw [Sys.run_append, Sys.run_append _ es2', y2] at this
  rw [WSys.run_append, WSys.run_append]
  exact this

/-- C77: a pushed message is there after the restart, in one place, once its push has been received by the task and flushed,
unless it was acknowledged or its dead letter removed. -/
theorem C77_pushed_partial (cfg : Config) (size : Nat) {es a b : List KEvent} {r : Outcome} {id : Id} {pl : Bytes} {pr t : Nat}
    (hc : Clean (es ++ [.op (.push id pl pr t)] ++ (a ++ [.tick r] ++ b))) (hr : r.good = true)
    (hv : ValidHist (clientPart (es ++ [.op (.push id pl pr t)] ++ (a ++ [.tick r] ++ b))))
    (hn : NoRestart (a ++ b)) (hrec : ((WSys.new cfg).run size (es ++ [.op (.push id pl pr t)])).1.chan.length ≤ receives a)
    (h1 : .op (.ack id) ∉ clientPart (a ++ [.tick r] ++ b)) (h2 : .op (.deleteDlq id) ∉ clientPart (a ++ [.tick r] ++ b))
    (h3 : .op .purgeDlq ∉ clientPart (a ++ [.tick r] ++ b)) {now : Nat} (hnow : lastStart (clientPart es) ≤ now) :
    place ((WSys.new cfg).run size (es ++ [.op (.push id pl pr t)] ++ (a ++ [.tick r] ++ b) ++ [.restart now])).1.q id ≠ .gone := by
  have hnr : NoRestart (a ++ [.tick r] ++ b) := by
    intro e he now
    rcases List.mem_append.1 he with he | he
    · rcases List.mem_append.1 he with he | he
      · exact hn e (List.mem_append_left _ he) now
      · rw [List.mem_singleton.1 he]; exact fun hh => nomatch hh
    · exact hn e (List.mem_append_right _ he) now
  have hset := settled size (s := ((WSys.new cfg).run size (es ++ [.op (.push id pl pr t)])).1) (a := a) (b := b) hc.right hr hn hrec
  generalize hes2 : a ++ [.tick r] ++ b = es2 at *
  obtain ⟨es', x1, x2, x3, x4⟩ := writer_sim size es (WSys.new cfg) hc.left.left
  obtain ⟨es2', y1, y2, y3, y4⟩ := writer_sim size es2 ((WSys.new cfg).run size (es ++ [.op (.push id pl pr t)])).1 hc.right
  have habs : (WSys.new cfg).abs = Sys.new cfg := rfl
  rw [habs] at x2 x3
  have hone : ((WSys.new cfg).run size (es ++ [.op (.push id pl pr t)])).1.abs = ((Sys.new cfg).run (es' ++ [.op (.push id pl pr t)])).1 := by
    rw [Sys.run_append, WSys.run_append, x2]
    simp [WSys.run, WSys.step, Sys.run, Sys.step, WSys.abs]
  rw [hone] at y2 y3
  have hcl : (es' ++ [Event.op (.push id pl pr t)]).filter Event.client = clientPart (es ++ [.op (.push id pl pr t)]) := by
    rw [List.filter_append, x1, clientPart_append]; rfl
  have hv' : ValidHist (es' ++ [.op (.push id pl pr t)] ++ es2') := by
    refine valid_client ?_
    rw [List.filter_append, hcl, y1, ← clientPart_append]; exact hv
  have hn' : noRestart es2' := noRestart_client (by rw [y1]; exact noRestart_part hnr)
  have hnow' : lastStart es' ≤ now := by rw [← lastStart_client, x1]; exact hnow
  have hmem : ∀ o : Op, Event.op o ∉ clientPart es2 → Event.op o ∉ es2' := by
    intro o ho hh
    exact ho (by rw [← y1]; exact List.mem_filter.2 ⟨hh, rfl⟩)
  have := (C33_push_not_lost cfg hv' hn' hnow' (by
    rw [Sys.run_append _ es2', y2, y3]; exact hset) (hmem _ h1) (hmem _ h2) (hmem _ h3)).1
  rw [Sys.run_append, Sys.run_append _ es2', y2] at this
  rw [WSys.run_append, WSys.run_append]
  exact this

/-- Batch size 3; the first flush of the timer cannot start, the second works. -/
def exTask : List KEvent :=
  [.op (.push 1 [10] 0 0), .op (.push 2 [20] 5 1), .recv (.commit []), .tick .noStart, .op (.pop 10)]
def exTask2 : List KEvent := [.recv .noStart, .recv (.commit []), .op (.push 3 [] 0 11)]
def exTask3 : List KEvent := [.op (.pop 12), .op (.nack 1 [] 13)]
example : Clean (exTask ++ [.op (.ack 2)] ++ (exTask2 ++ [.tick (.commit [.none])] ++ exTask3)) ∧ (Outcome.commit [.none]).good = true ∧
    ValidHist (clientPart (exTask ++ [.op (.ack 2)] ++ (exTask2 ++ [.tick (.commit [.none])] ++ exTask3))) ∧ NoRestart (exTask2 ++ exTask3) ∧
    ((WSys.new exCfg).run 3 (exTask ++ [.op (.ack 2)])).1.chan.length ≤ receives exTask2 ∧
    (step ((WSys.new exCfg).run 3 exTask).1.q (.ack 2)).2.1 = .bool true ∧ lastStart (clientPart exTask) ≤ 50 := by decide
example : ((WSys.new exCfg).run 3 (exTask ++ [.op (.ack 2)])).1.db = DB.empty ∧
    [1, 2, 3].map (place ((WSys.new exCfg).run 3 (exTask ++ [.op (.ack 2)] ++ (exTask2 ++ [.tick (.commit [.none])] ++ exTask3) ++ [.restart 50])).1.q) =
      [.waiting ⟨1, [10], 0, 0, 0⟩, .gone, .gone] := by decide
example : Clean ([] ++ [.op (.push 1 [10] 0 0)] ++ ([.recv .noStart] ++ [.tick (.commit [])] ++ [.op (.pop 10)])) ∧
    ((WSys.new exCfg).run 1 ([] ++ [.op (.push 1 [10] 0 0)])).1.chan.length ≤ receives [.recv .noStart] ∧
    .op (.ack 1) ∉ clientPart ([.recv .noStart] ++ [.tick (.commit [])] ++ [.op (.pop 10)]) := by decide

/-- C77 is violated when a commit fails: the batch is dropped, the task goes on with the next one.  A message whose push was
answered, and which the task received and flushed, is gone after the restart, while a message pushed later is there. -/
theorem C77_violated : ∃ (cfg : Config) (es : List KEvent), ValidHist (clientPart es) ∧
    ((WSys.new cfg).run 10 es).2.filterMap (fun o => o) = [.done, .done] ∧ ((WSys.new cfg).run 10 es).1.chan = [] ∧ ((WSys.new cfg).run 10 es).1.batch = [] ∧
    place ((WSys.new cfg).run 10 (es ++ [.restart 100])).1.q 1 = .gone ∧
    place ((WSys.new cfg).run 10 (es ++ [.restart 100])).1.q 2 = .waiting ⟨2, [20], 0, 0, 5⟩ :=
  ⟨exCfg, [.op (.push 1 [10] 0 0), .recv .noStart, .tick .noCommit, .op (.push 2 [20] 0 5), .recv .noStart, .tick (.commit [])], by decide⟩

/-- C77 is violated when a commit fails, for acknowledgements: a message that was acknowledged is delivered again. -/
theorem C77_violated_acked : ∃ (cfg : Config) (es : List KEvent), ValidHist (clientPart es) ∧
    ((WSys.new cfg).run 10 (es ++ [.op (.ack 1)])).2.getLast? = some (some (.bool true)) ∧
    (((WSys.new cfg).run 10 (es ++ [.op (.ack 1)] ++ [.recv .noStart, .tick .noCommit, .recv .noStart, .tick (.commit []), .restart 500, .op (.pop 501)])).2.filterMap
      (fun o => o)).map Out.delivered = [[], [1], [], [1]] :=
  ⟨exCfg, [.op (.push 1 [10] 0 0), .recv .noStart, .tick (.commit []), .op (.pop 10)], by decide⟩

/-- C77 is violated when the second statement of a move to the dead letters fails: the message is in neither table, although
the transaction was committed ("atomic" moves are two statements whose errors are handled separately from the commit). -/
theorem C77_violated_move : ∃ (cfg : Config) (es : List KEvent), ValidHist (clientPart es) ∧
    place ((WSys.new cfg).run 10 es).1.q 1 = .dead ⟨1, [10], 0, 2, 0, 13, [120]⟩ ∧ ((WSys.new cfg).run 10 es).1.chan = [] ∧ ((WSys.new cfg).run 10 es).1.batch = [] ∧
    place ((WSys.new cfg).run 10 (es ++ [.restart 100])).1.q 1 = .gone :=
  ⟨exCfg, [.op (.push 1 [10] 0 0), .op (.pop 10), .op (.nack 1 [] 11), .op (.pop 12), .recv .noStart, .tick (.commit []),
    .op (.nack 1 [120] 13), .recv .noStart, .tick (.commit [.second])], by decide⟩

/-! ## C78 -/

/-- C78: whatever fails - transactions that do not start, statements, commits - and whenever the process crashes, the queue
holds only messages that were pushed, with their payload, priority and time of creation, each in one place only. -/
theorem C78_sound (cfg : Config) (size : Nat) {es : List KEvent} (hv : ValidHist (clientPart es)) :
    let q := ((WSys.new cfg).run size es).1.q
    (∀ c ∈ places q, c ∈ pushedBy (clientPart es)) ∧
    ((waiting q ++ inFlight q).map (·.id) ++ (deadLetters q).map (·.id)).Nodup := by
  intro q
  have h := (WInv.init (· ∈ pushedBy (clientPart es)) cfg).run (size := size) es hv (by simp) (fun c hc => hc)
  obtain ⟨a, hq⟩ := h.q
  exact ⟨h.qc, one_place hq⟩

/-- C78: and whatever it hands out was pushed. -/
theorem C78_delivered (cfg : Config) (size : Nat) {es : List KEvent} {o : Op} (hv : ValidHist (clientPart (es ++ [.op o]))) :
    ∀ l, (step ((WSys.new cfg).run size es).1.q o).2.1 = .msgs l → ∀ m ∈ l, m.core ∈ pushedBy (clientPart (es ++ [.op o])) := by
  intro l hl m hm
  have h := (WInv.init (· ∈ pushedBy (clientPart (es ++ [.op o]))) cfg).run (size := size) _ hv (by simp) (fun c hc => hc)
  have hv0 : ValidHist (clientPart es) := by rw [clientPart_append] at hv; exact hv.left
  have h0 := (WInv.init (· ∈ pushedBy (clientPart es)) cfg).run (size := size) es hv0 (by simp) (fun c hc => hc)
  obtain ⟨a, hq⟩ := h.q
  obtain ⟨a0, hq0⟩ := h0.q
  have hqc := h.qc
  have hqq : ((WSys.new cfg).run size (es ++ [.op o])).1.q = (step ((WSys.new cfg).run size es).1.q o).1 := by
    rw [WSys.run_append]; rfl
  rw [hqq] at hq hqc
  generalize ((WSys.new cfg).run size es).1.q = q at *
  have hreg := handed_out hq0 o hl hm
  exact (hqc.reg hq hreg).1

/-- A commit fails, another transaction does not start, a statement fails, the process dies twice. -/
def exFaults : List KEvent :=
  [.op (.push 1 [10] 0 0), .op (.push 2 [20] 5 1), .recv .noStart, .tick (.commit [.first]), .op (.push 3 [30] 0 2), .recv .noStart, .tick .noCommit,
   .op (.pop 10), .op (.nack 2 [] 11), .op (.pop 12), .op (.nack 2 [] 13), .recv .noStart, .tick .noStart, .tick (.commit []), .restart 200,
   .op (.moveToQueue 2), .op (.pop 201), .recv .noStart, .tick (.commit [.second]), .restart 300]
example : ValidHist (clientPart (exFaults ++ [.op (.pop 301)])) ∧ places ((WSys.new exCfg).run 5 exFaults).1.q = [] ∧
    places ((WSys.new exCfg).run 5 (exFaults.take 15)).1.q = [(2, [20], 5, 1)] ∧
    (step ((WSys.new exCfg).run 5 (exFaults.take 7)).1.q (.pop 10)).2.1.delivered = [2] := by decide

end Verif.Queue
