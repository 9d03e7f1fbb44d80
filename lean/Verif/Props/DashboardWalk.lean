import Verif.Proofs.DashboardWalk
import Verif.Spec.DashboardWalk
import Verif.Proofs.DashboardMissed
import Verif.Spec.DashboardMissed

/-!
# Property C133: going through the pages of a queue in use

The property in full: whoever opens the waiting messages of a queue (the messages in flight, the dead letters) and presses "Next" until it
is disabled has seen every message that was there all the time, whatever happens to the queue meanwhile.
-/

namespace Verif.Dashboard

open Verif Verif.Queue

/-- **C133** (partial: until the last page nothing disappears from the view; `C133_violated` for a message that is consumed).  `v` is one
of the three views of a queue (waiting, in flight, dead letters), `q` a queue after any history, `sess` the lists of requests that are
executed before the second, third, … page.  For the waiting messages these can be pushes of any priority, messages given back by
consumers, timeouts, acknowledgements, requests on dead letters.  If the walk has come to a page where "Next" is disabled, every
message that was in the view when the first page was opened has been shown. -/
theorem C133_growing_partial (lossy : Bytes → Str) (v : View) {cfg : Config} {used : List Id} {q : QInner} (hq : Reachable cfg used q)
    (sess : List (List Op)) (hf : Fresh used sess.flatten) (hs : Stays v q sess.flatten)
    (hend : (pageWalk lossy v q 0 sess).2 = true) :
    ∀ id ∈ v.all q, id ∈ (pageWalk lossy v q 0 sess).1 := by
  intro id hid
  obtain ⟨_, a, ha⟩ := hq.inv
  exact walk_run lossy v sess 0 ha hf hs hend id hid (Nat.zero_le _)

/-- **C133**: pushes take no waiting message away. -/
theorem C133_pushes {cfg : Config} {used : List Id} {q : QInner} (hq : Reachable cfg used q) (ops : List Op) (hf : Fresh used ops)
    (hp : ∀ o ∈ ops, ∃ id payload priority now, o = .push id payload priority now) : Stays .pending q ops := by
  obtain ⟨_, a, ha⟩ := hq.inv
  exact stays_pushes ops ha hf hp

/-- `n` messages with the ids `k`, `k + 1`, … -/
def someMsgs (k n : Nat) : List Op := (List.range n).map (fun i => .push (k + i) [] 0 1)

/-- Settings of a queue. -/
def walkCfg : Config := { visibilityTimeout := 30000, maxRetries := 5 }

/-- The hypotheses of `C133_growing_partial` are met: 51 messages wait and one is in flight; before the second page two of a higher priority
are pushed, and the one in flight is given back. -/
example (lossy : Bytes → Str) :
    let h := .push 99 [] 3 1 :: someMsgs 0 51 ++ [.pop 1]
    let q := (Queue.run (QInner.empty walkCfg) h).1
    let sess := [[Op.push 100 [] 7 2, .push 102 [] 9 2, .nack 99 [] 3]]
    Reachable walkCfg (pushIds h) q ∧ Fresh (pushIds h) sess.flatten ∧ Stays .pending q sess.flatten ∧
    (waiting q).length = 51 ∧ (waiting (Queue.run q sess.flatten).1).length = 54 ∧ (pageWalk lossy .pending q 0 sess).2 = true := by
  intro h q sess
  refine ⟨reachable_run walkCfg ⟨?_, by decide +kernel, by simp⟩, ⟨?_, by decide, by decide +kernel⟩, ⟨?_, ?_, ?_, trivial⟩, by decide +kernel, by decide +kernel, ?_⟩
  · intro o ho
    rcases List.mem_append.1 ho with ho | ho
    · rcases List.mem_cons.1 ho with rfl | ho
      · trivial
      · obtain ⟨i, _, rfl⟩ := List.mem_map.1 ho
        trivial
    · simp only [List.mem_singleton] at ho
      subst ho
      trivial
  · intro o ho
    simp only [sess, List.flatten_cons, List.flatten_nil, List.append_nil, List.mem_cons, List.not_mem_nil, or_false] at ho
    rcases ho with rfl | rfl | rfl <;> trivial
  · decide +kernel
  · decide +kernel
  · decide +kernel
  · simp only [sess, pageWalk, (queue_page lossy _ .pending _).1, (queue_page lossy _ .pending _).2]
    decide +kernel

/-- They are met by messages in flight and by dead letters too: of 52 messages 51 are handed out (are dead), before the second page the
other one is handed out (is given up). -/
example (lossy : Bytes → Str) :
    let q := (Queue.run (QInner.empty walkCfg) (someMsgs 0 52 ++ [.consume 51 1])).1
    let sess := [[Op.pop 2]]
    Stays .inflight q sess.flatten ∧ (View.inflight.all q).length = 51 ∧ (pageWalk lossy .inflight q 0 sess).2 = true := by
  intro q sess
  refine ⟨⟨by decide +kernel, trivial⟩, by decide +kernel, ?_⟩
  simp only [sess, pageWalk, (queue_page lossy _ .inflight _).1, (queue_page lossy _ .inflight _).2]
  decide +kernel

example (lossy : Bytes → Str) :
    let q := (Queue.run (QInner.empty { walkCfg with maxRetries := 0 }) (someMsgs 0 52 ++ (List.range 51).map (fun i => .nack i [] 2))).1
    let sess := [[Op.nack 51 [] 3]]
    Stays .dead q sess.flatten ∧ (View.dead.all q).length = 51 ∧ (pageWalk lossy .dead q 0 sess).2 = true := by
  intro q sess
  refine ⟨⟨by decide +kernel, trivial⟩, by decide +kernel, ?_⟩
  simp only [sess, pageWalk, (queue_page lossy _ .dead _).1, (queue_page lossy _ .dead _).2]
  decide +kernel

/-- **C133 is violated** if a message is consumed between two pages: of 51 messages the first page shows 50; one is consumed; on the second
page "Next" is disabled and nothing is shown, although message 50 is waiting all the time. -/
theorem C133_violated (lossy : Bytes → Str) :
    let q := (Queue.run (QInner.empty walkCfg) (someMsgs 0 51)).1
    let sess := [[Op.pop 2]]
    (pageWalk lossy .pending q 0 sess).2 = true ∧ 50 ∉ (pageWalk lossy .pending q 0 sess).1 ∧
    50 ∈ (waiting q).map (·.id) ∧ 50 ∈ (waiting (Queue.run q sess.flatten).1).map (·.id) := by
  intro q sess
  refine ⟨?_, ?_, by decide +kernel, by decide +kernel⟩
  · simp only [sess, pageWalk, (queue_page lossy _ .pending _).1, (queue_page lossy _ .pending _).2]
    decide +kernel
  · simp only [sess, pageWalk, (queue_page lossy _ .pending _).1, (queue_page lossy _ .pending _).2]
    decide +kernel

/-- **C133**: how many can be missed, whatever the requests.  If the walk has come to a page where "Next" is disabled: among any different
messages that were in the view all the time, at most so many have not been shown as the requests between the pages have taken out of it. -/
theorem C133_missed_partial (lossy : Bytes → Str) (v : View) {cfg : Config} {used : List Id} {q : QInner} (hq : Reachable cfg used q)
    (sess : List (List Op)) (hf : Fresh used sess.flatten) (hend : (pageWalk lossy v q 0 sess).2 = true)
    (ids : List Nat) (hids : ids.Nodup) (hat : ∀ id ∈ ids, AllTheTime v id q sess.flatten) (hns : ∀ id ∈ ids, id ∉ (pageWalk lossy v q 0 sess).1) :
    ids.length ≤ takenOut v q sess.flatten := by
  obtain ⟨_, a, ha⟩ := hq.inv
  have h := walk_missed lossy v sess 0 ha hf hids hat hend
  rw [List.filter_eq_self.2 (fun x hx => decide_eq_true (hns x hx))] at h
  have h0 : before (v.all q) 0 ids = 0 := by simp [before]
  omega

/-- The bound is reached in `C133_violated`: one message is taken out, one that was waiting all the time is not shown. -/
example :
    let q := (Queue.run (QInner.empty walkCfg) (someMsgs 0 51)).1
    let sess := [[Op.pop 2]]
    Reachable walkCfg (pushIds (someMsgs 0 51)) q ∧ Fresh (pushIds (someMsgs 0 51)) sess.flatten ∧ AllTheTime .pending 50 q sess.flatten ∧
    takenOut .pending q sess.flatten = 1 := by
  intro q sess
  refine ⟨reachable_run walkCfg ⟨?_, by decide +kernel, by simp⟩, ⟨?_, by decide, by simp [sess, pushIds]⟩, ⟨by decide +kernel, by show 50 ∈ View.pending.all (Queue.step q (.pop 2)).1; decide +kernel⟩, by decide +kernel⟩
  · intro o ho
    obtain ⟨i, _, rfl⟩ := List.mem_map.1 ho
    trivial
  · intro o ho
    simp only [sess, List.flatten_cons, List.flatten_nil, List.append_nil, List.mem_singleton] at ho
    subst ho
    trivial

end Verif.Dashboard
