import Verif.Proofs.QueueTurns2

/-! # C132: a consumer processes the messages of a queue in order -/

namespace Verif.QueueE2E

open Verif.Queue (Id Msg Config Sys Op)
open Verif.Sdk.QueueLoop (inProgress)

/-- **C132** (partial: while the server runs, with at least one delivery per message, and up to messages that are handed out
again).  If the callback of a subscribed client is called with `x` and later with `y`, although `y` was pushed before `x` with the
same priority or a higher one, then the server handed out `y` at least twice. -/
theorem C132_in_order_partial (o : Options) (cfg : Config) (hmr : 1 ≤ cfg.maxRetries) (k : Nat) (es : List Event) (hv : Valid o es) (hr : noRestart es) :
    (callsOf o k (Net.new cfg) es).Pairwise (fun x y => PushedAhead es y.id x.id → 2 ≤ (handedOut o (Net.new cfg) es).count y.id) :=
  callsOf_order o cfg hmr k es hv hr

/-- **C132** (partial: likewise), for all consumers together: when a message is handed out to anybody, every message that was pushed
before it with the same priority or a higher one has been handed out before, or never is. -/
theorem C132_handed_out_partial (o : Options) (cfg : Config) (hmr : 1 ≤ cfg.maxRetries) (es : List Event) (hv : Valid o es) (hr : noRestart es)
    {u v : List Id} {x y : Id} (hx : handedOut o (Net.new cfg) es = u ++ x :: v) (hy : PushedAhead es y x) (hm : y ∈ handedOut o (Net.new cfg) es) : y ∈ u := by
  rw [hx] at hm
  rcases List.mem_append.1 hm with hm | hm
  · exact hm
  · rcases List.mem_cons.1 hm with rfl | hm
    · obtain ⟨pr, hp⟩ := priorities hv.2.2
      exact absurd (hy.before hv.2.2 hp).1.2 (Nat.lt_irrefl _)
    · exact handedOut_order o cfg hmr es hv hr u x v hx y hm hy

/-- **C132**: with `concurrency: 1` a client works on one message at a time. -/
theorem C132_one_at_a_time (o : Options) (cfg : Config) (k : Nat) (hc : o.concurrency k ≤ 1) (es : List Event) :
    (inProgress (((Net.new cfg).run o es).clients k).loop).length ≤ 1 :=
  Nat.le_trans (inProgress_busy _) (busy_run o cfg k hc es)

/-- **C132**: with `concurrency: 1` the callback is called only when the call before it has returned. -/
theorem C132_returns_first (o : Options) (cfg : Config) (k : Nat) (hc : o.concurrency k ≤ 1) (es : List Event) (e : Event)
    (he : callsByOf o k ((Net.new cfg).run o es) e ≠ []) : inProgress (((Net.new cfg).run o es).clients k).loop = [] := by
  cases e with
  | client j e r =>
    simp only [callsByOf] at he
    split at he
    · next hj =>
      subst hj
      have hb := busy_step _ hc _ (busy_run o cfg j hc es) e
      have hl := inProgress_busy (Sdk.QueueLoop.step (o.concurrency j) (((Net.new cfg).run o es).clients j).loop e).1
      rw [callsBy_nos] at he
      have hm := Sdk.QueueLoop.move (o.concurrency j) (((Net.new cfg).run o es).clients j).loop e
      have hn : nosBy o ((Net.new cfg).run o es) (.client j e r) ≠ [] := fun h => he (by rw [h]; rfl)
      have hn : Sdk.QueueLoop.called (Sdk.QueueLoop.step (o.concurrency j) (((Net.new cfg).run o es).clients j).loop e).2 ≠ [] := by
        intro h; refine hn ?_
        cases e <;> first | exact h | rfl
      generalize (Sdk.QueueLoop.step (o.concurrency j) (((Net.new cfg).run o es).clients j).loop e).2 = os at hm hn
      generalize (Sdk.QueueLoop.step (o.concurrency j) (((Net.new cfg).run o es).clients j).loop e).1 = l at hm hb hl
      cases hm with
      | call m up _ ha h1 h2 h3 =>
        rw [h2, List.length_append, List.length_singleton] at hl
        exact List.length_eq_zero_iff.1 (by omega)
      | bring ms _ hs hp h1 h2 h3 => exact absurd rfl hn
      | skip m up _ ha h1 h2 h3 => exact absurd (by cases up <;> rfl) hn
      | ret m ok up _ hm h1 h2 h3 => exact absurd (by cases up <;> cases ok <;> rfl) hn
      | other _ _ _ hb h1 h2 h3 h4 => exact absurd (by rcases h3 with h3 | ⟨h3, _⟩ | ⟨h3, _⟩ <;> rw [h3] <;> rfl) hn
    · exact absurd rfl he
  | _ => exact absurd rfl he

/-! ### A case -/

def turnsOpts : Options := { concurrency := fun _ => 1, batchSize := fun _ => 2 }
def turnsCfg : Config := { visibilityTimeout := 100, maxRetries := 3 }

/-- Three messages, the last one with a higher priority; a client gets two of them, processes them, and gets the third. -/
def turnsHist : List Event :=
  [.op (.push 1 [7] 0 0), .op (.push 2 [8] 0 1), .op (.push 3 [9] 5 2), .client 0 (.poll true) [], .exec 0 5, .receive 0 true,
   .client 0 (.take true) [], .client 0 (.returned 0 true true) [], .client 0 (.take true) [], .client 0 (.returned 1 true true) [],
   .client 0 (.take true) [], .client 0 (.poll true) [], .exec 2 6, .receive 0 true, .client 0 (.take true) []]

theorem turnsValid : Valid turnsOpts turnsHist ∧ noRestart turnsHist := by
  refine ⟨⟨fun k => by show 2 * Queue.msgSize ≤ _; decide, ?_, by decide⟩, fun now h => by simp [turnsHist] at h⟩
  intro x hx; simp [turnsHist] at hx; rcases hx with rfl | rfl | rfl <;> trivial

example : (callsOf turnsOpts 0 (Net.new turnsCfg) turnsHist).map (·.id) = [3, 1, 2] ∧ handedOut turnsOpts (Net.new turnsCfg) turnsHist = [3, 1, 2] ∧
    inProgress (((Net.new turnsCfg).run turnsOpts turnsHist).clients 0).loop = [2] := by decide
example : PushedAhead turnsHist 1 2 := ⟨[], [], turnsHist.drop 2, [7], [8], 0, 0, 0, 1, rfl, by decide⟩

example : (callsByOf turnsOpts 0 ((Net.new turnsCfg).run turnsOpts (turnsHist.take 8)) (.client 0 (.take true) [])).map (·.id) = [1] ∧
    callsByOf turnsOpts 0 ((Net.new turnsCfg).run turnsOpts (turnsHist.take 7)) (.client 0 (.take true) []) = [] := by decide

/-- The answer with the first message is lost. -/
def turnsLost : List Event :=
  [.op (.push 1 [7] 0 0), .client 0 (.poll true) [], .exec 0 5, .loseAnswer 0, .op (.push 2 [8] 0 6), .client 0 .failed [], .client 0 .wake [],
   .client 0 (.poll true) [], .exec 0 7, .receive 0 true, .client 0 (.take true) [], .client 0 (.returned 1 true true) [], .client 0 (.take true) [],
   .op (.tick 200 200), .client 0 (.poll true) [], .exec 1 201, .receive 0 true, .client 0 (.take true) []]

/-- **C132 is violated**, also with `concurrency: 1`, by a message that is handed out in an answer that is lost: the callback is called with the
second message first.  No callback failed, nobody else used the queue, and the server was not restarted. -/
theorem C132_violated : ∃ (o : Options) (cfg : Config) (es : List Event), Valid o es ∧ noRestart es ∧ (∀ k, o.concurrency k = 1) ∧ 1 ≤ cfg.maxRetries ∧
    PushedAhead es 1 2 ∧ (callsOf o 0 (Net.new cfg) es).map (·.id) = [2, 1] ∧ calls o (Net.new cfg) es = callsOf o 0 (Net.new cfg) es ∧
    ∀ k m up r, .client k (.returned m false up) r ∉ es := by
  refine ⟨turnsOpts, turnsCfg, turnsLost, ⟨fun k => by show 2 * Queue.msgSize ≤ _; decide, ?_, by decide⟩, fun now h => by simp [turnsLost] at h, fun _ => rfl,
    by decide, ⟨[], (turnsLost.drop 1).take 3, turnsLost.drop 5, [7], [8], 0, 0, 0, 6, rfl, by decide⟩, by decide, by decide, ?_⟩
  · intro x hx; simp [turnsLost] at hx; rcases hx with rfl | rfl | rfl <;> trivial
  · intro k m up r h; simp [turnsLost] at h

end Verif.QueueE2E
