import Verif.Proofs.SdkQueue

/-!
# C70: the queue consumer of the client library

Every message a subscription receives is given to the callback at most once, in the order received, and is then
acknowledged if the callback returned and refused if it threw, never both and never before; at most `concurrency` callbacks
run at a time; the next messages are asked for only when all callbacks have returned.  After `stop()` the callback is not
called again, messages that it was not called with are given back, and when the promise of `stop()` is resolved no
callback runs.
-/

namespace Verif.Sdk.QueueLoop

variable (concurrency : Nat)

/-- What is done with a message: nothing, or a call, followed by at most one of acknowledgement and refusal; or a refusal
without a call. -/
theorem C70_once (es : List Ev) (hn : (received concurrency {} es).Nodup) (m : Nat) :
    about m (outs concurrency {} es) ∈ [[], [Out.call m], [Out.call m, .ack m], [Out.call m, .nack m], [Out.nack m]] :=
  (traced concurrency es hn).fate m

/-- The callback is called in the order in which the messages were received. -/
theorem C70_order (es : List Ev) (hn : (received concurrency {} es).Nodup) :
    (called (outs concurrency {} es)).Sublist (received concurrency {} es) :=
  (List.sublist_append_left _ _).trans (traced concurrency es hn).sub

/-- An acknowledgement is sent when the callback of that message returns without an error, and only then. -/
theorem C70_ack (es : List Ev) (m : Nat) (h : Out.ack m ∈ outs concurrency {} es) :
    ∃ a b, es = a ++ Ev.returned m true true :: b ∧ m ∈ inProgress (run concurrency {} a) := by
  obtain ⟨a, e, b, he, h'⟩ := out_split concurrency h
  obtain ⟨h1, rfl⟩ := ack_event concurrency h'
  exact ⟨a, b, he, h1⟩

/-- A message is refused when its callback throws, or without a call after `stop()`. -/
theorem C70_nack (es : List Ev) (hn : (received concurrency {} es).Nodup) (m : Nat) (h : Out.nack m ∈ outs concurrency {} es) :
    ∃ a e b, es = a ++ e :: b ∧
      (e = .returned m false true ∧ m ∈ inProgress (run concurrency {} a) ∨ Ev.stop ∈ a ∧ Out.call m ∉ outs concurrency {} es) := by
  obtain ⟨a, e, b, he, h'⟩ := out_split concurrency h
  refine ⟨a, e, b, he, ?_⟩
  rcases nack_event concurrency h' with ⟨h1, h2⟩ | ⟨h1, h2, rfl⟩
  · exact .inl ⟨h2, h1⟩
  · refine .inr ⟨(inactive_iff concurrency a).mp h1, fun hc => ?_⟩
    have hpre : (received concurrency {} a).Nodup := by
      rw [he, received_append] at hn
      exact (List.nodup_append.mp hn).1
    have h0 := (traced concurrency a hpre).td m h2
    have hab : about m (outs concurrency {} es) = Out.nack m :: about m (outs concurrency (run concurrency {} (a ++ [.take true])) b) := by
      have hes : es = (a ++ [Ev.take true]) ++ b := by rw [he]; simp
      have hone : about m (step concurrency (run concurrency {} a) (.take true)).2 = [Out.nack m] := by
        have hmv := move concurrency (run concurrency {} a) (.take true)
        generalize (step concurrency (run concurrency {} a) (.take true)).2 = o at hmv h'
        cases hmv with
        | call n => simp at h'
        | skip n => simp at h'; subst h'; simp [about, Out.of]
        | other _ _ _ _ _ _ g => rcases g with rfl | ⟨rfl, _⟩ | ⟨rfl, _⟩ <;> simp at h'
      rw [hes, outs_append, outs_snoc, about_append, about_append, h0, hone]; rfl
    have hin : Out.call m ∈ about m (outs concurrency {} es) := by
      simp only [about, List.mem_filter]; exact ⟨hc, by simp [Out.of]⟩
    have hf := (traced concurrency es hn).fate m
    rw [hab] at hf hin
    simp only [fates, List.mem_cons, List.not_mem_nil, or_false] at hf
    rcases hf with hf | hf | hf | hf | hf
    all_goals (try (cases hf; done))
    · simp at hf
      rw [hf] at hin
      simp at hin

/-- At most `concurrency` callbacks run at a time (one, if a smaller number is given): those that were called and have not
returned. -/
theorem C70_bound (es : List Ev) : (inProgress (run concurrency {} es)).length ≤ max 1 concurrency := by
  have := staffed concurrency es
  unfold Staffed at this
  unfold inProgress
  split at this
  · next hp => rw [hp]; simp only []; omega
  · split <;> simp_all

/-- `inProgress` is what it says. -/
theorem C70_in_progress (es : List Ev) (hn : (received concurrency {} es).Nodup) (m : Nat) :
    (m ∈ inProgress (run concurrency {} es) → Out.call m ∈ outs concurrency {} es ∧ Out.ack m ∉ outs concurrency {} es ∧ Out.nack m ∉ outs concurrency {} es) ∧
    (Out.call m ∈ outs concurrency {} es → (∀ ok up, Ev.returned m ok up ∉ es) → m ∈ inProgress (run concurrency {} es)) := by
  refine ⟨fun h => ?_, called_in_progress concurrency es⟩
  have := (traced concurrency es hn).ip m h
  have key : ∀ o, Out.of m o = true → (o ∈ outs concurrency {} es ↔ o ∈ about m (outs concurrency {} es)) := by
    intro o ho; simp [about, ho]
  rw [key (.call m) (by simp [Out.of]), key (.ack m) (by simp [Out.of]), key (.nack m) (by simp [Out.of]), this]
  simp

/-- When the next messages are asked for, and when the promise of `stop()` is resolved, no callback runs, and every message
received so far has been acknowledged or refused, as far as the connection was up. -/
theorem C70_settled (es : List Ev) (e : Ev) (hn : (received concurrency {} es).Nodup)
    (h : Out.consume ∈ (step concurrency (run concurrency {} es) e).2 ∨ Out.finished ∈ (step concurrency (run concurrency {} es) e).2) :
    inProgress (run concurrency {} es) = [] ∧
    ((∀ e ∈ es, e.up = true) → ∀ m ∈ received concurrency {} es,
      Out.ack m ∈ outs concurrency {} es ∨ Out.nack m ∈ outs concurrency {} es) := by
  obtain ⟨h1, h2, _⟩ := idle_event concurrency h
  refine ⟨h2, fun hu m hm => ?_⟩
  have := (traced concurrency es hn).settled (by simpa using hu) m hm
  rw [h1, h2] at this
  simpa using this

/-- After `stop()` the callback is not called again and no messages are asked for. -/
theorem C70_stop (es es' : List Ev) : let os := outs concurrency (run concurrency {} (es ++ [.stop])) es'
    called os = [] ∧ Out.consume ∉ os := by
  intro os
  have hin : ∀ a b, es' = a ++ b → (run concurrency (run concurrency {} (es ++ [.stop])) a).active = false := by
    intro a b _
    rw [← run_append]
    exact (inactive_iff concurrency _).mpr (by simp)
  have hcall : ∀ m, Out.call m ∉ os := by
    intro m hm
    obtain ⟨a, e, b, he, h⟩ := out_split concurrency hm
    have := (call_event concurrency h).1
    rw [hin a _ he] at this
    cases this
  refine ⟨?_, fun hm => ?_⟩
  · have : ∀ l : List Out, (∀ m, Out.call m ∉ l) → called l = [] := by
      intro l
      induction l with
      | nil => intro _; rfl
      | cons o l ih =>
        intro hl
        have hl' := ih (fun m hm => hl m (List.mem_cons_of_mem _ hm))
        cases o with
        | call m => exact absurd List.mem_cons_self (hl m)
        | _ => exact hl'
    exact this os hcall
  · obtain ⟨a, e, b, he, h⟩ := out_split concurrency hm
    have := (idle_event concurrency (.inl h)).2.2.1 h
    rw [hin a _ he] at this
    cases this

/-- `stop()` comes to an end: until its promise is resolved the loop can go on — by itself, or when the answer it waits for
comes or fails, a sleep ends or a callback returns — and the number of steps it can make is bounded. -/
theorem C70_stop_ends (es : List Ev) (hs : Ev.stop ∈ es) :
    ((run concurrency {} es).phase = .finished ∨
      ∃ e, (e matches .poll _ ∨ e matches .failed ∨ e matches .wake ∨ e matches .take _ ∨
        ∃ m ∈ inProgress (run concurrency {} es), e = .returned m true true) ∧
        (step concurrency (run concurrency {} es) e).1 ≠ run concurrency {} es) ∧
    ∀ es', Effective concurrency (run concurrency {} es) es' →
      es'.length ≤ effort (run concurrency {} es) + 2 * (received concurrency (run concurrency {} es) es').length := by
  have ha : (run concurrency {} es).active = false := (inactive_iff concurrency es).mpr hs
  have hst := staffed concurrency es
  constructor
  · generalize run concurrency {} es = s at ha hst
    obtain ⟨act, ph⟩ := s
    subst ha
    cases ph with
    | finished => exact .inl rfl
    | head => exact .inr ⟨.poll true, by simp, by simp [step]⟩
    | polling => exact .inr ⟨.failed, by simp, by simp [step]⟩
    | backoff => exact .inr ⟨.wake, by simp, by simp [step]⟩
    | batch t r f =>
      right
      simp only [Staffed] at hst
      cases r with
      | cons m r =>
        refine ⟨.returned m true true, .inr (.inr (.inr (.inr ⟨m, by simp [inProgress], rfl⟩))), ?_⟩
        simp [step]
      | nil =>
        obtain ⟨f, rfl⟩ : ∃ g, f = g + 1 := ⟨f - 1, by simp at hst; omega⟩
        refine ⟨.take true, by simp, ?_⟩
        cases t with
        | nil => by_cases hf : f = 0 <;> simp [step, hf]
        | cons m t => simp [step]
  · intro es'
    generalize run concurrency {} es = s at ha
    clear hst
    induction es' generalizing s with
    | nil => intro _; simp
    | cons e es' ih =>
      rintro ⟨hne, h⟩
      have h1 := effort_step concurrency ha e hne
      have h2 := ih _ (inactive_step concurrency ha e) h
      simp only [List.length_cons, received, List.length_append]
      omega

/-- Two workers, three messages: the second fails; then `stop()` while the next two are on their way. -/
def demo : List Ev :=
  [.poll true, .delivered [10, 11, 12], .take true, .take true, .returned 11 false true, .take true, .returned 12 true true, .take true,
   .returned 10 true true, .take true, .poll true, .stop, .delivered [13, 14], .take true, .take true, .take true, .take true, .poll true]

example : (received 2 {} demo).Nodup ∧ (∀ e ∈ demo, e.up = true) ∧
    outs 2 {} demo = [.consume, .call 10, .call 11, .nack 11, .call 12, .ack 12, .ack 10, .consume, .nack 13, .nack 14, .finished] := by decide

example : Ev.stop ∈ demo.take 13 ∧ (run 2 {} (demo.take 13)).phase ≠ .finished ∧ Effective 2 (run 2 {} (demo.take 13)) (demo.drop 13) := by
  refine ⟨by decide, by decide, ?_⟩
  simp only [demo, List.take, List.drop, run, step, workers, Effective]
  decide

end Verif.Sdk.QueueLoop
