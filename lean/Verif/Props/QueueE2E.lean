import Verif.Proofs.QueueE2E

/-!
# C84, C85: consumers and queue, end to end

`Verif.Spec.QueueE2E` says what is observed: `calls` (the messages the callbacks are called with) and `processed` (the ids
of the messages for which a callback returned without an error); `Queue.place` says where the queue has a message.
-/

namespace Verif.QueueE2E

open Verif.Queue (Id Msg Config Sys Op place)

/-! ## C84 -/

/-- C84: as long as the server runs, a pushed message is in the queue (waiting, handed out or dead-lettered), unless
the callback of some client returned without an error for it, or somebody removed it by hand.  Whatever is lost on the way,
however many clients there are, whenever they stop, time out or lose their connection. -/
theorem C84_not_lost (o : Options) (cfg : Config) {es : List Event} (hv : Valid o es) (hr : noRestart es)
    {id : Id} {payload : Bytes} {priority t : Nat} (hp : .op (.push id payload priority t) ∈ es) :
    place ((Net.new cfg).run o es).server.q id ≠ .gone ∨ id ∈ processed o (Net.new cfg) es ∨ RemovedByHand es id := by
  by_cases h1 : id ∈ processed o (Net.new cfg) es
  · exact .inr (.inl h1)
  by_cases h2 : RemovedByHand es id
  · exact .inr (.inr h2)
  left
  obtain ⟨a, b, rfl⟩ := List.append_of_mem hp
  have hsv : (Net.new cfg).server = Sys.new cfg := rfl
  have hvs := hv.server o (Net.new cfg)
  have hno : ∀ x, Queue.Event.op x ∈ serverEvents o (Net.new cfg) (a ++ .op (.push id payload priority t) :: b) →
      x ≠ .ack id ∧ x ≠ .deleteDlq id ∧ x ≠ .purgeDlq := by
    intro x hx
    refine ⟨?_, ?_, ?_⟩
    · rintro rfl
      rcases acks_processed o cfg hx with h | h
      · exact h1 h
      · exact h2 (.inl h)
    · rintro rfl
      rcases mem_server o hx with h | ⟨_, _, _, _, q, _, _, h⟩
      · exact h2 (.inr (.inl h))
      · cases q <;> cases h
    · rintro rfl
      rcases mem_server o hx with h | ⟨_, _, _, _, q, _, _, h⟩
      · exact h2 (.inr (.inr h))
      · cases q <;> cases h
  rw [server_run, hsv]
  have hsplit : serverEvents o (Net.new cfg) (a ++ .op (.push id payload priority t) :: b) =
      (serverEvents o (Net.new cfg) a ++ [.op (.push id payload priority t)]) ++
        serverEvents o (((Net.new cfg).run o a).step o (.op (.push id payload priority t))) b := by
    rw [serverEvents_append, serverEvents]; simp [serverEvent]
  have hnr : Queue.noRestart (serverEvents o (((Net.new cfg).run o a).step o (.op (.push id payload priority t))) b) := by
    intro e he now hh
    subst hh
    exact hr now (List.mem_append_right _ (List.mem_cons_of_mem _ (restart_server o he)))
  rw [hsplit] at hvs hno ⊢
  obtain ⟨q, hq⟩ := (Queue.sysInv cfg hvs.left.left).q
  have hg : place ((Sys.new cfg).run (serverEvents o (Net.new cfg) a ++ [.op (.push id payload priority t)])).1.q id ≠ .gone := by
    rw [Queue.Sys.run_append]
    exact Queue.push_place hq (hvs.left.1 (.op (.push id payload priority t)) (by simp))
      (hvs.left.right.2 id (by simp [Queue.eventIds, Queue.Op.pushId]))
  exact Queue.keep_events cfg hvs hnr hg (fun h => (hno _ (List.mem_append_right _ h)).1 rfl)
    (fun h => (hno _ (List.mem_append_right _ h)).2.1 rfl) (fun h => (hno _ (List.mem_append_right _ h)).2.2 rfl)

/-- C84 with crashes: if at some moment (after `es`) the message is in the queue and everything is committed, then it
stays in the queue through any number of crashes and restarts of the server, unless the callback of some client
returned without an error for it, or somebody removed it by hand. -/
theorem C84_stored (o : Options) (cfg : Config) {es es2 : List Event} (hv : Valid o (es ++ es2)) {id : Id}
    (hin : place ((Net.new cfg).run o es).server.q id ≠ .gone) (hc : ((Net.new cfg).run o es).server.pending = []) :
    place ((Net.new cfg).run o (es ++ es2)).server.q id ≠ .gone ∨ id ∈ processed o (Net.new cfg) (es ++ es2) ∨ RemovedByHand es2 id := by
  by_cases h1 : id ∈ processed o (Net.new cfg) (es ++ es2)
  · exact .inr (.inl h1)
  by_cases h2 : RemovedByHand es2 id
  · exact .inr (.inr h2)
  left
  have hsv : (Net.new cfg).server = Sys.new cfg := rfl
  have hvs := hv.server o (Net.new cfg)
  rw [serverEvents_append] at hvs
  have hno : ∀ x, Queue.Event.op x ∈ serverEvents o ((Net.new cfg).run o es) es2 → x ≠ .ack id ∧ x ≠ .deleteDlq id ∧ x ≠ .purgeDlq := by
    intro x hx
    rcases mem_server o hx with h | ⟨a, i, now, b, q, e1, e2, h⟩
    · exact ⟨by rintro rfl; exact h2 (.inl h), by rintro rfl; exact h2 (.inr (.inl h)), by rintro rfl; exact h2 (.inr (.inr h))⟩
    · refine ⟨?_, ?_, ?_⟩
      · rintro rfl
        cases q with
        | consume => cases h
        | nack => cases h
        | ack j =>
          cases h
          refine h1 ?_
          rw [← run_append] at e2
          rw [e1, ← List.append_assoc, processed_append]
          exact List.mem_append_left _ (requests_processed o cfg _ (List.mem_of_getElem? e2))
      · rintro rfl; cases q <;> cases h
      · rintro rfl; cases q <;> cases h
  rw [server_run, hsv] at hin hc ⊢
  rw [serverEvents_append]
  have hh := Queue.Held.run cfg _ hvs (Queue.Held.committed (Queue.sysInv cfg hvs.left) hc hin)
    (fun h => (hno _ h).1 rfl) (fun h => (hno _ h).2.1 rfl) (fun h => (hno _ h).2.2 rfl)
  exact hh.place (Queue.sysInv cfg hvs)

def exOpts : Options := { concurrency := fun _ => 2, batchSize := fun k => if k = 0 then 1 else 2 }
def exCfg : Config := { visibilityTimeout := 100, maxRetries := 2 }

/-- Two clients: client 1 takes messages 1 and 2; its callback throws for 1 and returns for 2; the connection of client 0 takes
message 1 and is lost; the server crashes and starts again. -/
def exHist : List Event :=
  [.op (.push 1 [7] 0 0), .op (.push 2 [8] 0 1), .client 1 (.poll true) [], .exec 0 5, .receive 0 true,
    .client 1 (.take true) [], .client 1 (.take true) [], .client 1 (.returned 0 false true) [101], .client 1 (.returned 1 true true) [],
    .exec 0 8, .exec 0 9, .commit 20]
def exHist2 : List Event := [.client 0 (.poll true) [], .exec 0 20, .loseAnswer 0, .restart 300, .commit 1, .restart 400]

theorem exValid : Valid exOpts exHist := by
  refine ⟨?_, ?_, by decide⟩
  · intro k; simp only [exOpts]; split <;> decide
  · intro x hx; simp [exHist] at hx; rcases hx with rfl | rfl <;> trivial
example : noRestart exHist ∧ place ((Net.new exCfg).run exOpts exHist).server.q 1 ≠ .gone ∧ processed exOpts (Net.new exCfg) exHist = [2] ∧
    place ((Net.new exCfg).run exOpts exHist).server.q 2 = .gone ∧ ((Net.new exCfg).run exOpts exHist).server.pending = [] := by
  refine ⟨fun now h => by simp [exHist] at h, by decide, by decide, by decide, by decide⟩
example : place ((Net.new exCfg).run exOpts (exHist ++ exHist2)).server.q 1 = .waiting ⟨1, [7], 0, 1, 0⟩ := by decide

/-! ## C85 -/

/-- C85, first part: a callback is called only with messages that were pushed, with the id and the payload they were
pushed with, also after crashes of the server. -/
theorem C85_faithful_partial (o : Options) (cfg : Config) {es : List Event} (hv : Valid o es) {m : Msg} (hm : m ∈ calls o (Net.new cfg) es) :
    .op (.push m.id m.payload m.priority m.createdAt) ∈ es := by
  rw [calls_nos] at hm
  obtain ⟨n, _, hn⟩ := List.mem_filterMap.1 hm
  have := deliveries_pushed o cfg (fun c => Event.op (.push c.1 c.2.1 c.2.2.1 c.2.2.2) ∈ es) es hv (by
    intro x hx c hc
    cases x with
    | push id payload priority now =>
      simp only [Queue.Op.pushCore, List.mem_singleton] at hc
      subst hc
      exact hx
    | _ => cases hc) m (List.mem_of_getElem? hn)
  exact this

theorem restarts_server (o : Options) (s : Net) (es : List Event) : Queue.restarts (serverEvents o s es) = restarts es := by
  induction es generalizing s with
  | nil => rfl
  | cons e es ih =>
    have h1 : Queue.restarts (serverEvents o s (e :: es)) = Queue.restarts (serverEvent o s e) + Queue.restarts (serverEvents o (s.step o e) es) := by
      simp [serverEvents, Queue.restarts, List.filter_append]
    have h2 : restarts (e :: es) = restarts [e] + restarts es := by
      rw [show e :: es = [e] ++ es from rfl]
      simp only [restarts, List.filter_append, List.length_append]
    rw [h1, h2, ih]
    congr 1
    cases e with
    | exec i now =>
      simp only [serverEvent]
      cases s.requests[i]? <;> rfl
    | _ => rfl

/-- C85, second part: over all clients together, the callbacks are called for a message that is not replayed from the
dead letters at most `max 1 max_retries` times for every run of the server. -/
theorem C85_bounded_partial (o : Options) (cfg : Config) {es : List Event} (hv : Valid o es) {id : Id}
    (hm : .op (.moveToQueue id) ∉ es) :
    ((calls o (Net.new cfg) es).filter (fun m => m.id = id)).length ≤ max 1 cfg.maxRetries * (restarts es + 1) := by
  have h1 := calls_le o cfg es id
  have h2 := deliveries_le o cfg es id
  have h3 := Queue.delivered_any cfg id _ (hv.server o (Net.new cfg)) (by
    intro e he hh
    subst hh
    rcases mem_server o he with h | ⟨_, _, _, _, q, _, _, h⟩
    · exact hm h
    · cases q <;> cases h)
  rw [eventIds_server, restarts_server] at h3
  have hc : (pushIds es).count id ≤ 1 := List.nodup_iff_count.1 hv.2.2 id
  have h4 : max 1 cfg.maxRetries * (pushIds es).count id * (restarts es + 1) ≤ max 1 cfg.maxRetries * 1 * (restarts es + 1) :=
    Nat.mul_le_mul_right _ (Nat.mul_le_mul_left _ hc)
  rw [Nat.mul_one] at h4
  have h5 : ((calls o (Net.new cfg) es).filter (fun m => m.id = id)).length = ((calls o (Net.new cfg) es).map (·.id)).count id := by
    rw [List.count_eq_countP, List.countP_map, List.countP_eq_length_filter]
    congr 1
  omega

example : (calls exOpts (Net.new exCfg) exHist).map (fun m => (m.id, m.payload)) = [(1, [7]), (2, [8])] := by decide

/-- C85 is violated: a message is dead-lettered although no callback was ever called with it.  The client fetches it
and is stopped before a worker takes it: the message is refused with "Consumer stopped", which uses up its only attempt. -/
theorem C85_violated : ∃ (o : Options) (cfg : Config) (es : List Event) (id : Id) (d : Queue.DlqMsg), Valid o es ∧ noRestart es ∧
    place ((Net.new cfg).run o es).server.q id = .dead d ∧ calls o (Net.new cfg) es = [] := by
  refine ⟨{ concurrency := fun _ => 1, batchSize := fun _ => 1 }, { visibilityTimeout := 100, maxRetries := 1 },
    [.op (.push 1 [7] 0 0), .client 0 (.poll true) [], .exec 0 5, .receive 0 true, .client 0 .stop [],
      .client 0 (.take true) [67], .exec 0 6], 1, ⟨1, [7], 0, 1, 0, 6, [67]⟩, ⟨fun k => by first | (show 1 * Queue.msgSize ≤ _; decide) | (show 2 * Queue.msgSize ≤ _; decide), ?_, by decide⟩, ?_, by decide, by decide⟩
  · intro x hx; simp at hx; subst hx; trivial
  · intro now h; simp at h

/-- C85 is violated: a message that can be decoded is dead-lettered without its callback being called because another message
of the same batch cannot be decoded: the client gives up the whole batch (whether an answer can be decoded is an input
of the model; `queue.ts:61-67` decodes all messages of a batch before the first callback is called). -/
theorem C85_violated_neighbour : ∃ (o : Options) (cfg : Config) (es : List Event) (d : Queue.DlqMsg), Valid o es ∧ noRestart es ∧
    place ((Net.new cfg).run o es).server.q 2 = .dead d ∧ calls o (Net.new cfg) es = [] := by
  refine ⟨{ concurrency := fun _ => 1, batchSize := fun _ => 2 }, { visibilityTimeout := 100, maxRetries := 1 },
    [.op (.push 1 [2, 123] 0 0), .op (.push 2 [8] 0 1), .client 0 (.poll true) [], .exec 0 5, .receive 0 false, .op (.tick 200 200)],
    ⟨2, [8], 0, 1, 1, 200, Queue.timeoutReason⟩, ⟨fun k => by first | (show 1 * Queue.msgSize ≤ _; decide) | (show 2 * Queue.msgSize ≤ _; decide), ?_, by decide⟩, ?_, by decide, by decide⟩
  · intro x hx; simp at hx; rcases hx with rfl | rfl | rfl <;> trivial
  · intro now h; simp at h

end Verif.QueueE2E
