import Verif.Proofs.QueueCrash
import Verif.Props.Queue

/-!
# Properties C32-C35: queues and restarts
-/

namespace Verif.Queue

open Spec.Queue (Item Dead Q Core Req Ans)

/-! ## C32 -/

/-- C32: when all storage operations of a history have been committed, a restart at `now` (not before the
previous start) puts every message where it should be - with its payload, priority and attempt count (they
are part of `Place`) - and shows the same dead letters in the same order. -/
theorem C32_clean_restart (cfg : Config) {es : List Event} (hv : ValidHist es) {now : Nat} (hnow : lastStart es ≤ now)
    (hc : ((Sys.new cfg).run es).1.pending = []) :
    let q := ((Sys.new cfg).run es).1.q
    let q' := ((Sys.new cfg).run (es ++ [.restart now])).1.q
    (∀ id, place q' id = (place q id).afterRestart now) ∧ deadLetters q' = deadLetters q ∧ q'.cfg = q.cfg := by
  intro q q'
  have inv := sysInv cfg hv
  obtain ⟨a, ha⟩ := inv.q
  have hag := inv.agree
  rw [hc] at hag
  have hq' : q' = recover q.cfg now ((Sys.new cfg).run es).1.db := by
    show ((Sys.new cfg).run (es ++ [.restart now])).1.q = _
    rw [Sys.run_append]; rfl
  have hrec := RQ.recover inv.db q.cfg now
  refine ⟨?_, ?_, ?_⟩
  · intro id
    rw [hq']
    exact place_recover ha (regI cfg es hv) hnow hag inv.db q.cfg id rfl
  · rw [hq', deadLetters_eq, deadLetters_eq, hrec.2.1]
    have := hag.dlq
    simp only [execAll, List.foldl_nil] at this
    rw [this]
  · rw [hq']; rfl

def exClean : List Event :=
  [.op (.push 1 [10] 0 0), .op (.push 2 [20] 5 1), .op (.push 3 [30] 0 2), .op (.pop 10), .op (.pop 40), .op (.push 4 [] 9 41),
   .op (.pop 42), .op (.nack 4 [] 43), .op (.pop 44), .op (.nack 4 [120] 45), .commit 100]
example : ValidHist exClean ∧ lastStart exClean ≤ 120 ∧ ((Sys.new exCfg).run exClean).1.pending = [] := by decide
example : [1, 2, 3, 4, 5].map (place ((Sys.new exCfg).run exClean).1.q) =
    [.inFlight 140 ⟨1, [10], 0, 1, 0⟩, .inFlight 110 ⟨2, [20], 5, 1, 1⟩, .waiting ⟨3, [30], 0, 0, 2⟩, .dead ⟨4, [], 9, 2, 41, 45, [120]⟩, .gone] ∧
  [1, 2, 3, 4, 5].map (place ((Sys.new exCfg).run (exClean ++ [.restart 120])).1.q) =
    [.inFlight 140 ⟨1, [10], 0, 1, 0⟩, .waiting ⟨2, [20], 5, 1, 1⟩, .waiting ⟨3, [30], 0, 0, 2⟩, .dead ⟨4, [], 9, 2, 41, 45, [120]⟩, .gone] := by decide

/-! ## C33 -/

/-- C33: whatever is lost in a crash, the recovered contents are those of some moment of the history.

The history is cut into `es` and `es2`; `es2` contains no restart and everything sent to the writer during
`es` is committed by the end (what is still outstanding was sent during `es2`).  After a crash at the end
and a restart, there is a moment in `es2`, that is `es2 = a ++ b`, such that every message is where a restart
from the state after `es ++ a` puts it, or - if the next event is a request that was cut in the middle of a
batch - where a restart from the state just after that request puts it. -/
theorem C33_crash (cfg : Config) {es es2 : List Event} (hv : ValidHist (es ++ es2)) (hn : noRestart es2) {now : Nat}
    (hnow : lastStart es ≤ now)
    (hc : ((Sys.new cfg).run (es ++ es2)).1.pending.length ≤ (sent ((Sys.new cfg).run es).1 es2).length) :
    let q' := ((Sys.new cfg).run (es ++ es2 ++ [.restart now])).1.q
    ∃ a b, es2 = a ++ b ∧ ∀ id,
      place q' id = (place ((Sys.new cfg).run (es ++ a)).1.q id).afterRestart now ∨
      ∃ o b', b = .op o :: b' ∧ place q' id = (place ((Sys.new cfg).run (es ++ a ++ [.op o])).1.q id).afterRestart now := by
  intro q'
  have inv := sysInv cfg hv
  have inv0 := sysInv cfg hv.left
  let s := ((Sys.new cfg).run es).1
  have hs : ((Sys.new cfg).run es).1 = s := rfl
  obtain ⟨C, c1, c2⟩ := commit_split es2 hn s
  rw [Sys.run_append, hs] at hc
  have hlen := congrArg List.length c1
  simp only [List.length_append] at hlen
  let k := (sent s es2).length - (s.run es2).1.pending.length
  have hC : C = s.pending ++ (sent s es2).take k := by
    have h1 : C = (s.pending ++ sent s es2).take C.length := by
      rw [← c1, List.take_append_of_le_length (Nat.le_refl _), List.take_length]
    rw [h1, List.take_append, List.take_of_length_le (by omega)]
    congr 2
    simp only [k]; omega
  obtain ⟨a, b, h1, h2⟩ := sent_cut es2 s k (Nat.sub_le _ _)
  have hva : ValidHist (es ++ a) := by rw [h1, ← List.append_assoc] at hv; exact hv.left
  have hna : noRestart a := fun e he => hn e (by rw [h1]; exact List.mem_append_left _ he)
  have hag := agree_sent cfg hva hna
  simp only [hs] at hag
  have hqa : ((Sys.new cfg).run (es ++ a)).1.q = (s.run a).1.q := by rw [Sys.run_append]
  obtain ⟨qa, hqa'⟩ := (sysInv cfg hva).q
  have hdb' : DBI (execAll s.db C) (· ∈ eventIds (es ++ es2)) := by
    have := inv.db
    rw [Sys.run_append, hs, c2] at this
    exact this
  have hq' : q' = recover (s.run es2).1.q.cfg now (execAll s.db C) := by
    show ((Sys.new cfg).run (es ++ es2 ++ [.restart now])).1.q = _
    rw [Sys.run_append, Sys.run_append, hs]
    simp only [Sys.run, Sys.step, c2]
  have lastA := lastStart_noRestart es
  have hra := regI cfg (es ++ a) hva
  rw [lastA a hna] at hra
  refine ⟨a, b, h1, ?_⟩
  intro id
  rcases h2 with h2 | ⟨o, b', j, hb, h3⟩
  · left
    rw [hq', hC, h2]
    rw [hC, h2] at hdb'
    refine place_recover hqa' hra hnow ?_ hdb' _ id rfl
    rw [hqa]; exact hag
  · have hok : o.ok := hv.1 (.op o) (by rw [h1, hb]; simp)
    have hvo : ValidHist (es ++ a ++ [.op o]) := by
      have : es ++ es2 = (es ++ a ++ [.op o]) ++ b' := by rw [h1, hb]; simp
      rw [this] at hv; exact hv.left
    have hno : noRestart (a ++ [.op o]) := by
      intro e he
      rcases List.mem_append.1 he with he | he
      · exact hna e he
      · rw [List.mem_singleton.1 he]; intro now hh; cases hh
    have hago := agree_sent cfg (es := es) (a := a ++ [.op o]) (by rw [← List.append_assoc]; exact hvo) hno
    simp only [hs, sent_append] at hago
    have hsent : sent (s.run a).1 [.op o] = (step (s.run a).1.q o).2.2 := by simp [sent, sentBy]
    rw [hsent, ← List.append_assoc, execAll_append] at hago
    obtain ⟨qo, hqo⟩ := (sysInv cfg hvo).q
    have hro := regI cfg _ hvo
    rw [List.append_assoc, lastA _ hno] at hro
    have ht := step_touch (q := (s.run a).1.q) (by rw [← hqa]; exact hqa') o hok id
    rw [hC, h3, ← List.append_assoc, execAll_append] at hdb'
    rw [hq', hC, h3, ← List.append_assoc, execAll_append]
    rcases entry_prefix ht (execAll s.db (s.pending ++ sent s a)) j with he | he
    · left
      refine place_recover hqa' hra hnow ?_ hdb' _ id he
      rw [hqa]; exact hag
    · right
      refine ⟨o, b', hb, ?_⟩
      rw [List.append_assoc]
      rw [List.append_assoc] at hqo
      refine place_recover hqo hro hnow ?_ hdb' _ id he
      rw [Sys.run_append, hs]
      exact hago

/-- C33: a committed ACK is never undone: if everything sent up to and including a successful ACK is
committed, the message is not in the queue after a crash and restart. -/
theorem C33_ack_not_undone (cfg : Config) {es es2 : List Event} {id : Id} (hv : ValidHist (es ++ [.op (.ack id)] ++ es2))
    (hn : noRestart es2) {now : Nat} (hnow : lastStart es ≤ now)
    (hack : (step ((Sys.new cfg).run es).1.q (.ack id)).2.1 = .bool true)
    (hc : ((Sys.new cfg).run (es ++ [.op (.ack id)] ++ es2)).1.pending.length ≤
      (sent ((Sys.new cfg).run (es ++ [.op (.ack id)])).1 es2).length) :
    place ((Sys.new cfg).run (es ++ [.op (.ack id)] ++ es2 ++ [.restart now])).1.q id = .gone := by
  have hl : lastStart (es ++ [.op (.ack id)]) = lastStart es :=
    lastStart_noRestart es _ (by intro e he; rw [List.mem_singleton.1 he]; intro now hh; cases hh)
  obtain ⟨a, ha⟩ := (sysInv cfg hv.left.left).q
  have hg := ack_place ha hack
  have hu := (ack_gone ha hack).2
  have hg' : place ((Sys.new cfg).run (es ++ [.op (.ack id)])).1.q id = .gone := by
    rw [Sys.run_append]; exact hg
  have hu' : id ∈ eventIds (es ++ [.op (.ack id)]) := by
    rw [eventIds_append]; exact List.mem_append_left _ hu
  obtain ⟨x, y, h1, h2⟩ := C33_crash cfg hv hn (now := now) (by rw [hl]; exact hnow) hc
  have hpre : ∀ x y, es2 = x ++ y → place ((Sys.new cfg).run (es ++ [.op (.ack id)] ++ x)).1.q id = .gone := by
    intro x y hxy
    refine gone_events cfg ?_ ?_ hg' hu'
    · rw [hxy, ← List.append_assoc] at hv; exact hv.left
    · exact fun e he => hn e (by rw [hxy]; exact List.mem_append_left _ he)
  rcases h2 id with h | ⟨o, y', h3, h⟩
  · rw [h, afterRestart_gone]; exact hpre x y h1
  · rw [h, afterRestart_gone, List.append_assoc (es ++ [Event.op (.ack id)]) x]
    exact hpre (x ++ [Event.op o]) y' (by rw [h1, h3]; simp)

/-- C33: a committed push is never lost: if everything sent up to and including the push is committed, and the
message is neither acknowledged nor removed from the dead letters afterwards, then it is in the queue, in
exactly one place, after a crash and restart. -/
theorem C33_push_not_lost (cfg : Config) {es es2 : List Event} {id : Id} {pl : Bytes} {pr t : Nat}
    (hv : ValidHist (es ++ [.op (.push id pl pr t)] ++ es2))
    (hn : noRestart es2) {now : Nat} (hnow : lastStart es ≤ now)
    (hc : ((Sys.new cfg).run (es ++ [.op (.push id pl pr t)] ++ es2)).1.pending.length ≤
      (sent ((Sys.new cfg).run (es ++ [.op (.push id pl pr t)])).1 es2).length)
    (h1 : .op (.ack id) ∉ es2) (h2 : .op (.deleteDlq id) ∉ es2) (h3 : .op .purgeDlq ∉ es2) :
    let q' := ((Sys.new cfg).run (es ++ [.op (.push id pl pr t)] ++ es2 ++ [.restart now])).1.q
    place q' id ≠ .gone ∧ ((waiting q' ++ inFlight q').map (·.id) ++ (deadLetters q').map (·.id)).Nodup := by
  have hl : lastStart (es ++ [.op (.push id pl pr t)]) = lastStart es :=
    lastStart_noRestart es _ (by intro e he; rw [List.mem_singleton.1 he]; intro now hh; cases hh)
  obtain ⟨a, ha⟩ := (sysInv cfg hv.left.left).q
  have hg' : place ((Sys.new cfg).run (es ++ [.op (.push id pl pr t)])).1.q id ≠ .gone := by
    rw [Sys.run_append]
    exact push_place ha (hv.left.1 (.op (.push id pl pr t)) (by simp)) (hv.left.right.2 id (by simp [eventIds, Op.pushId]))
  obtain ⟨x, y, e1, e2⟩ := C33_crash cfg hv hn (now := now) (by rw [hl]; exact hnow) hc
  have hpre : ∀ x y, es2 = x ++ y → place ((Sys.new cfg).run (es ++ [.op (.push id pl pr t)] ++ x)).1.q id ≠ .gone := by
    intro x y hxy
    refine keep_events cfg ?_ ?_ hg' ?_ ?_ ?_
    · rw [hxy, ← List.append_assoc] at hv; exact hv.left
    · exact fun e he => hn e (by rw [hxy]; exact List.mem_append_left _ he)
    · exact fun h => h1 (by rw [hxy]; exact List.mem_append_left _ h)
    · exact fun h => h2 (by rw [hxy]; exact List.mem_append_left _ h)
    · exact fun h => h3 (by rw [hxy]; exact List.mem_append_left _ h)
  constructor
  · rcases e2 id with h | ⟨o, y', e3, h⟩
    · rw [h, ne_eq, afterRestart_gone]; exact hpre x y e1
    · rw [h, ne_eq, afterRestart_gone, List.append_assoc (es ++ [Event.op (.push id pl pr t)]) x]
      exact hpre (x ++ [Event.op o]) y' (by rw [e1, e3]; simp)
  · have hv' : ValidHist (es ++ [.op (.push id pl pr t)] ++ es2 ++ [.restart now]) := by
      refine ⟨?_, ?_⟩
      · intro e he
        rcases List.mem_append.1 he with he | he
        · exact hv.1 e he
        · rw [List.mem_singleton.1 he]; trivial
      · rw [eventIds_append]; simpa [eventIds] using hv.2
    obtain ⟨b, hb⟩ := (sysInv cfg hv').q
    exact one_place hb

/-! Everything up to the first ACK is committed; the crash loses the rest. -/
def exPre : List Event := [.op (.push 1 [10] 0 0), .op (.push 2 [20] 5 1), .op (.pop 10), .op (.pop 12)]
def exPost : List Event := [.commit 5, .op (.push 3 [] 0 20), .op (.nack 1 [] 21), .op (.pop 22)]
example : ValidHist (exPre ++ [.op (.ack 2)] ++ exPost) ∧ noRestart exPost ∧ lastStart exPre ≤ 50 ∧
    (step ((Sys.new exCfg).run exPre).1.q (.ack 2)).2.1 = .bool true ∧
    ((Sys.new exCfg).run (exPre ++ [.op (.ack 2)] ++ exPost)).1.pending.length ≤
      (sent ((Sys.new exCfg).run (exPre ++ [.op (.ack 2)])).1 exPost).length ∧
    ((Sys.new exCfg).run (exPre ++ [.op (.ack 2)] ++ exPost)).1.pending.length = 3 := by
  refine ⟨by decide, ?_, by decide, by decide, by decide, by decide⟩
  intro e he now
  simp only [exPost, List.mem_cons, List.not_mem_nil, or_false] at he
  rcases he with h | h | h | h <;> rw [h] <;> exact fun hh => nomatch hh
example : let es2 : List Event := [.commit 1, .op (.pop 10), .op (.nack 1 [] 11)]
    ValidHist ([] ++ [.op (.push 1 [10] 0 0)] ++ es2) ∧
    ((Sys.new exCfg).run ([] ++ [.op (.push 1 [10] 0 0)] ++ es2)).1.pending.length ≤
      (sent ((Sys.new exCfg).run ([] ++ [.op (.push 1 [10] 0 0)])).1 es2).length ∧
    .op (.ack 1) ∉ es2 ∧ .op (.deleteDlq 1) ∉ es2 ∧ .op .purgeDlq ∉ es2 := by decide

/-! ## C34 -/

/-- C34 is violated: a client pushes a message, receives it and acknowledges it; all three requests are
answered and everything is committed - but the storage operations reach the writer out of order, and after
the restart the acknowledged message is delivered again. -/
theorem C34_violated : ∃ (cfg : Config) (es : List RaceEvent) (id : Id),
    let s := ((Race.new cfg).run es).1
    s.pending = [] ∧ (∀ o ∈ s.outboxes, o = []) ∧ place s.q id = .gone ∧
    (step s.q (.ack id)).2.1 = .bool false ∧
    delivered id ((Race.new cfg).run (es ++ [.restart 200, .op (.pop 200)])).2 = 2 :=
  ⟨exCfg, [.op (.push 1 [7] 0 0), .op (.pop 5), .op (.ack 1), .send 2, .send 0, .send 1, .commit 3], 1, by decide⟩

/-- C34, the part that holds: whatever the schedule, if the storage operations of each message reached the
writer in the order of the requests and everything has been committed, a restart puts every message where it
should be.  Missing for the full property: the order of arrival, which the code does not guarantee
(`C34_violated`). -/
theorem C34_ordered_partial (cfg : Config) {es : List RaceEvent} (hv : ValidHist (raceOps es))
    (hr : ∀ e ∈ es, ∀ now, e ≠ .restart now) (now : Nat)
    (hc : ((Race.new cfg).run es).1.pending = [])
    (ho : ∀ id, ((Race.new cfg).run es).1.arrived.filter (touches id) = ((Race.new cfg).run es).1.log.filter (touches id)) :
    let q := ((Race.new cfg).run es).1.q
    let q' := ((Race.new cfg).run (es ++ [.restart now])).1.q
    ∀ id, place q' id = (place q id).afterRestart now := by
  intro q q' id
  obtain ⟨h1, h2, h3, h4, h5⟩ := race_sim cfg es hr
  have inv := sysInv cfg hv
  obtain ⟨a, ha⟩ := inv.q
  have hag := inv.agree
  rw [h5, h4] at hag
  rw [hc] at h3
  have hent : ∀ id, entry ((Race.new cfg).run es).1.db id = entry (execAll DB.empty (sent (Sys.new cfg) (raceOps es))) id := by
    intro id
    have : ((Race.new cfg).run es).1.db = execAll DB.empty ((Race.new cfg).run es).1.arrived := h3
    rw [this, entry_project, ho id, ← entry_project, h2]
  obtain ⟨w1, w2, w3⟩ := execAll_wf ((Race.new cfg).run es).1.arrived (db := DB.empty) MWF.nil MWF.nil (by simp [DB.empty])
  have hdb : DBI ((Race.new cfg).run es).1.db (· ∈ eventIds (raceOps es)) := by
    have : ((Race.new cfg).run es).1.db = execAll DB.empty ((Race.new cfg).run es).1.arrived := h3
    have hdc := dbi_committed cfg hv
    rw [h4, h5] at hdc
    refine DBI.of_entries hdc hent ?_ ?_ ?_
    · rw [this]; exact w1
    · rw [this]; exact w2
    · rw [this]; exact w3
  have hq' : q' = recover q.cfg now ((Race.new cfg).run es).1.db := by
    show ((Race.new cfg).run (es ++ [.restart now])).1.q = _
    rw [Race.run_append]; rfl
  rw [hq']
  show place _ id = (place ((Race.new cfg).run es).1.q id).afterRestart now
  rw [h1]
  have hri := regI cfg _ hv
  rw [lastStart_raceOps] at hri
  exact place_recover ha hri (Nat.zero_le now) hag hdb _ id (hent id)

example : let es : List RaceEvent := [.op (.push 1 [7] 0 0), .op (.push 2 [8] 0 0), .op (.pop 5), .send 1, .op (.ack 1), .send 0,
      .send 2, .commit 2, .send 3, .commit 9]
    ValidHist (raceOps es) ∧ ((Race.new exCfg).run es).1.pending = [] ∧
    ((Race.new exCfg).run es).1.arrived ≠ ((Race.new exCfg).run es).1.log ∧
    ∀ id ∈ [1, 2, 3], ((Race.new exCfg).run es).1.arrived.filter (touches id) = ((Race.new exCfg).run es).1.log.filter (touches id) := by
  decide

/-! ## C35 -/

/-- C35 is violated: with a limit of one delivery, a message whose timeout passes around a clean restart is
delivered a second time. -/
theorem C35_violated : ∃ (cfg : Config) (es : List Event) (id : Id), ValidHist es ∧ cfg.maxRetries = 1 ∧
    (∀ e ∈ es, e ≠ .op (.moveToQueue id)) ∧ delivered id ((Sys.new cfg).run es).2 = 2 :=
  ⟨{ visibilityTimeout := 100, maxRetries := 1 },
    [.op (.push 1 [7] 0 0), .op (.pop 10), .commit 9, .restart 110, .op (.pop 111)], 1, by decide⟩

/-- C35, the part that holds: when every restart finds everything committed (and the clock does not go back),
a message that is not replayed is delivered at most the configured number of times plus one per restart. -/
theorem C35_clean_restarts_partial (cfg : Config) {es : List Event} (hv : ValidHist es) (hcl : CleanRestarts (Sys.new cfg) es)
    (hmono : ∀ t now r, es = t ++ .restart now :: r → lastStart t ≤ now)
    {id : Id} (hm : ∀ e ∈ es, e ≠ .op (.moveToQueue id)) :
    delivered id ((Sys.new cfg).run es).2 ≤ max 1 cfg.maxRetries + restarts es := by
  have h := delivered_clean cfg id es hv hm (fun t now ⟨r, hr⟩ => hmono t now r hr) hcl
  have hc : (eventIds es).count id ≤ 1 := List.nodup_iff_count.1 hv.2 id
  have : max 1 cfg.maxRetries * (eventIds es).count id ≤ max 1 cfg.maxRetries * 1 := Nat.mul_le_mul_left _ hc
  omega

/-- C35, the part that holds for any crash: at most the configured number of deliveries per run of the
process. -/
theorem C35_any_restarts_partial (cfg : Config) {es : List Event} (hv : ValidHist es)
    {id : Id} (hm : ∀ e ∈ es, e ≠ .op (.moveToQueue id)) :
    delivered id ((Sys.new cfg).run es).2 ≤ max 1 cfg.maxRetries * (restarts es + 1) := by
  have h := delivered_any cfg id es hv hm
  have hc : (eventIds es).count id ≤ 1 := List.nodup_iff_count.1 hv.2 id
  have : max 1 cfg.maxRetries * (eventIds es).count id * (restarts es + 1) ≤ max 1 cfg.maxRetries * 1 * (restarts es + 1) :=
    Nat.mul_le_mul_right _ (Nat.mul_le_mul_left _ hc)
  rw [Nat.mul_one] at this
  omega

example : let es : List Event := [.op (.push 1 [7] 0 0), .op (.pop 10), .commit 9, .restart 110, .op (.pop 111), .op (.nack 1 [] 112), .commit 9, .restart 120]
    ValidHist es ∧ (∀ e ∈ es, e ≠ .op (.moveToQueue 1)) ∧ restarts es = 2 ∧ delivered 1 ((Sys.new { exCfg with maxRetries := 1 }).run es).2 = 2 := by decide
example : CleanRestarts (Sys.new exCfg) [.op (.push 1 [7] 0 0), .op (.pop 10), .commit 9, .restart 110, .op (.pop 111)] := by
  simp only [CleanRestarts]
  refine ⟨fun ⟨_, h⟩ => (nomatch h), fun ⟨_, h⟩ => (nomatch h), fun ⟨_, h⟩ => (nomatch h), fun _ => by decide, fun ⟨_, h⟩ => (nomatch h), trivial⟩

end Verif.Queue
