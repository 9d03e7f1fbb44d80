import Verif.Proofs.SdkStream

/-!
# C71: the stream consumer of the client library

Every message a subscription receives is given to the callback at most once, in the order received; it is acknowledged, once,
when the callback has returned without an error, under the membership with which it was fetched; at most `concurrency`
callbacks run at a time.  After `stop()` the callback is not called again; `stop()` leaves the group.

The last sentence fails when `stop()` is called while the consumer joins the group again: no leave request is sent, the
consumer stays in the group and the messages it has asked for are given to nobody.
-/

namespace Verif.Sdk.StreamLoop

variable (concurrency : Nat) (c0 : Member)

/-- What is done with a message: nothing, or a call, followed by at most one acknowledgement. -/
theorem C71_once (es : List Ev) (hn : (received concurrency { member := some c0 } es).Nodup) (m : Nat) :
    about m (outs concurrency { member := some c0 } es) = [] ∨
    about m (outs concurrency { member := some c0 } es) = [Out.call m] ∨
    ∃ c, about m (outs concurrency { member := some c0 } es) = [Out.call m, .ack c m] := by
  obtain ⟨up, h⟩ := traced concurrency c0 es hn
  have hf := h.fate m
  rw [outView_about] at hf
  have hall : ∀ o ∈ about m (outs concurrency { member := some c0 } es), o = .call m ∨ ∃ c, o = .ack c m := by
    intro o ho
    have := (List.mem_filter.mp ho).2
    cases o with
    | call n => simp [Out.of] at this; exact .inl (by rw [this])
    | ack c n => simp [Out.of] at this; exact .inr ⟨c, by rw [this]⟩
    | _ => simp [Out.of] at this
  generalize about m (outs concurrency { member := some c0 } es) = l at hf hall
  simp only [QueueLoop.fates, List.mem_cons, List.not_mem_nil, or_false] at hf
  match l, hall with
  | [], _ => exact .inl rfl
  | [a], hall =>
    rcases hall a (by simp) with rfl | ⟨c, rfl⟩
    · exact .inr (.inl rfl)
    · simp [outView] at hf
  | [a, b], hall =>
    rcases hall a (by simp) with rfl | ⟨c, rfl⟩ <;> rcases hall b (by simp) with rfl | ⟨d, rfl⟩ <;> simp [outView] at hf
    exact .inr (.inr ⟨d, rfl⟩)
  | a :: b :: d :: l, hall =>
    rcases hall a (by simp) with rfl | ⟨_, rfl⟩ <;> rcases hall b (by simp) with rfl | ⟨_, rfl⟩ <;>
      rcases hall d (by simp) with rfl | ⟨_, rfl⟩ <;> simp [outView] at hf

/-- The callback is called in the order in which the messages were received. -/
theorem C71_order (es : List Ev) (hn : (received concurrency { member := some c0 } es).Nodup) :
    (called (outs concurrency { member := some c0 } es)).Sublist (received concurrency { member := some c0 } es) := by
  obtain ⟨up, h⟩ := traced concurrency c0 es hn
  have := h.sub
  rw [outView_called] at this
  exact (List.sublist_append_left _ _).trans this

/-- An acknowledgement is sent when the callback of that message returns without an error, and only then; and it names the
membership of the fetch request whose answer brought the message. -/
theorem C71_ack (es : List Ev) (c : Member) (m : Nat) (h : Out.ack c m ∈ outs concurrency { member := some c0 } es) :
    ∃ a ms b d, es = a ++ Ev.delivered ms :: b ++ Ev.returned m true true :: d ∧ m ∈ ms ∧
      lastFetch (outs concurrency { member := some c0 } a) = some c ∧
      m ∈ inProgress (run concurrency { member := some c0 } (a ++ Ev.delivered ms :: b)) := by
  obtain ⟨p, e, d, rfl, h'⟩ := out_split concurrency h
  obtain ⟨rfl, t, r, f, hp, hm⟩ := ack_event concurrency h'
  obtain ⟨a, ms, b, rfl, hms, hph⟩ := came concurrency _ rfl p hp m (.inr hm)
  exact ⟨a, ms, b, d, rfl, hms, usedBy_last concurrency _ rfl a (by simp [usedBy, hph]), by simp [inProgress, hp, hm]⟩

/-- At most `concurrency` callbacks run at a time (one, if a smaller number is given). -/
theorem C71_bound (es : List Ev) : (inProgress (run concurrency { member := some c0 } es)).length ≤ max 1 concurrency := by
  have := staffed concurrency c0 es
  unfold Staffed at this
  unfold inProgress
  cases hp : (run concurrency { member := some c0 } es).phase <;> simp only [hp] at this ⊢ <;> simp
  omega

/-- After `stop()` the callback is not called again and the group is not joined again. -/
theorem C71_stop (es es' : List Ev) : let os := outs concurrency (run concurrency { member := some c0 } (es ++ [.stop])) es'
    (∀ m, Out.call m ∉ os) ∧ Out.join ∉ os := by
  intro os
  have key : ∀ o ∈ os, ∃ s e, s.active = false ∧ o ∈ (step concurrency s e).2 := by
    intro o ho
    obtain ⟨a, e, b, _, h⟩ := out_split concurrency ho
    rw [← run_append] at h
    exact ⟨_, e, (inactive_iff concurrency c0 _).mpr (by simp), h⟩
  refine ⟨fun m hm => ?_, fun hm => ?_⟩
  · obtain ⟨s, e, ha, h⟩ := key _ hm
    exact (stopped_step concurrency ha e).1 m h
  · obtain ⟨s, e, ha, h⟩ := key _ hm
    exact (stopped_step concurrency ha e).2.1 h

/-- If `stop()` is called while the consumer is a member of the group, a leave request for that membership is sent, and
nothing more is fetched.  `partial`: the consumer that is joining again is left out. -/
theorem C71_leave_partial (es es' : List Ev) (c : Member) (h : (run concurrency { member := some c0 } es).member = some c)
    (hj : (run concurrency { member := some c0 } es).phase ≠ .joining) :
    (step concurrency (run concurrency { member := some c0 } es) .stop).2 = [.leave c] ∧
    (∀ d, Out.fetch d ∉ outs concurrency (run concurrency { member := some c0 } (es ++ [.stop])) es') ∧
    (run concurrency { member := some c0 } (es ++ .stop :: es')).member = some c := by
  have hrun : run concurrency { member := some c0 } (es ++ .stop :: es') =
      run concurrency (run concurrency { member := some c0 } (es ++ [.stop])) es' := by rw [← run_append]; simp
  rw [hrun, run_snoc]
  refine ⟨by simp [step, h], ?_⟩
  have h1 : (step concurrency (run concurrency { member := some c0 } es) .stop).1.active = false := rfl
  have h2 : (step concurrency (run concurrency { member := some c0 } es) .stop).1.phase ≠ .joining := hj
  have h3 : (step concurrency (run concurrency { member := some c0 } es) .stop).1.member = some c := h
  generalize (step concurrency (run concurrency { member := some c0 } es) .stop).1 = s at h1 h2 h3
  clear hrun h hj
  induction es' generalizing s with
  | nil => exact ⟨by simp [outs], h3⟩
  | cons e es' ih =>
    obtain ⟨_, _, hs⟩ := stopped_step concurrency h1 e
    obtain ⟨g1, g2, g3⟩ := hs h2
    have := ih _ (by rw [active_step, h1]; rfl) g1 (g2.trans h3)
    refine ⟨fun d hd => ?_, this.2⟩
    simp only [outs, List.mem_append] at hd
    rcases hd with hd | hd
    · exact g3 d hd
    · exact this.1 d hd

/-- `stop()` while the consumer joins again: no leave request is sent for the membership it then gets, it fetches messages,
nobody is called with them, and the loop ends. -/
theorem C71_violated : ∃ (c : Member) (es es' : List Ev) (m : Nat),
    let s := run 1 { member := some c0 } (es ++ [.stop])
    s.phase = .joining ∧ m ∈ received 1 s es' ∧ Out.finished ∈ outs 1 s es' ∧ Out.fetch c ∈ outs 1 s es' ∧
    (run 1 s es').member = some c ∧ ∀ d, Out.leave d ∉ outs 1 { member := some c0 } (es ++ [.stop]) ++ outs 1 s es' :=
  ⟨⟨5, 2⟩, [.go true, .fetchFailed true], [.joined ⟨5, 2⟩, .delivered [10], .take, .take, .go true], 10, by
    have h1 : outs 1 { member := some c0 } ([.go true, .fetchFailed true] ++ [.stop]) = [.fetch c0, .join] := rfl
    have h2 : outs 1 (run 1 { member := some c0 } ([.go true, .fetchFailed true] ++ [.stop]))
        [.joined ⟨5, 2⟩, .delivered [10], .take, .take, .go true] = [.fetch ⟨5, 2⟩, .finished] := rfl
    have h3 : received 1 (run 1 { member := some c0 } ([.go true, .fetchFailed true] ++ [.stop]))
        [.joined ⟨5, 2⟩, .delivered [10], .take, .take, .go true] = [10] := rfl
    exact ⟨rfl, by rw [h3]; simp, by rw [h2]; simp, by rw [h2]; simp, rfl, by rw [h1, h2]; simp⟩⟩

/-- `stop()` comes to an end: until the loop has ended it can go on — by itself, or when the answer it waits for comes or
fails, a sleep ends or a callback returns — and the number of steps it can make is bounded. -/
theorem C71_stop_ends (es : List Ev) (hs : Ev.stop ∈ es) : let s := run concurrency { member := some c0 } es
    (s.phase = .finished ∨
      ∃ e, (e matches .go _ ∨ e matches .joinFailed _ ∨ e matches .fetchFailed _ ∨ e matches .wake ∨ e matches .take ∨
        ∃ m ∈ inProgress s, e = .returned m true true) ∧ (step concurrency s e).1 ≠ s) ∧
    ∀ es', Effective concurrency s es' → es'.length ≤ effort s + 2 * (received concurrency s es').length := by
  intro s
  have ha : s.active = false := (inactive_iff concurrency c0 es).mpr hs
  have hst : Staffed concurrency s := staffed concurrency c0 es
  generalize s = s at ha hst
  constructor
  · obtain ⟨act, mem, ph⟩ := s
    subst ha
    cases ph with
    | finished => exact .inl rfl
    | head => exact .inr ⟨.go true, by simp, by simp [step]⟩
    | joining => exact .inr ⟨.joinFailed true, by simp, by simp [step, caught]⟩
    | polling => exact .inr ⟨.fetchFailed true, by simp, by simp [step, caught]⟩
    | backoff => exact .inr ⟨.wake, by simp, by simp [step]⟩
    | batch c t r f =>
      right
      simp only [Staffed] at hst
      cases r with
      | cons m r =>
        refine ⟨.returned m true true, .inr (.inr (.inr (.inr (.inr ⟨m, by simp [inProgress], rfl⟩)))), ?_⟩
        simp [step]
      | nil =>
        obtain ⟨f, rfl⟩ : ∃ g, f = g + 1 := ⟨f - 1, by simp at hst; omega⟩
        refine ⟨.take, by simp, ?_⟩
        cases t with
        | nil => by_cases hf : f = 0 <;> simp [step, hf]
        | cons m t => simp [step]
  · intro es'
    clear hst
    induction es' generalizing s with
    | nil => intro _; simp
    | cons e es' ih =>
      rintro ⟨hne, h⟩
      have h1 := effort_step concurrency ha e hne
      have h2 := ih _ (by rw [active_step, ha]; rfl) h
      simp only [List.length_cons, received, List.length_append]
      omega

/-- Messages under two memberships; a callback that throws; then `stop()`. -/
def demo : List Ev :=
  [.go true, .delivered [10, 11], .take, .returned 10 true true, .take, .returned 11 false true, .take, .go true, .fetchFailed true,
   .joined ⟨6, 2⟩, .delivered [12, 13], .take, .stop, .returned 12 true true, .take, .take, .go true]

example : (received 1 { member := some ⟨5, 1⟩ } demo).Nodup ∧
    outs 1 { member := some ⟨5, 1⟩ } demo = [.fetch ⟨5, 1⟩, .call 10, .ack ⟨5, 1⟩ 10, .call 11, .fetch ⟨5, 1⟩, .join, .fetch ⟨6, 2⟩,
      .call 12, .leave ⟨6, 2⟩, .ack ⟨6, 2⟩ 12, .finished] := by decide

example : (run 1 { member := some ⟨5, 1⟩ } (demo.take 12)).member = some ⟨6, 2⟩ ∧
    (run 1 { member := some ⟨5, 1⟩ } (demo.take 12)).phase ≠ .joining ∧ Ev.stop ∈ demo.take 13 ∧
    (run 1 { member := some ⟨5, 1⟩ } (demo.take 13)).phase ≠ .finished := by decide

end Verif.Sdk.StreamLoop
