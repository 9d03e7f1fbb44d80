import Verif.Proofs.SdkConnection

/-!
# C67–C69: requests and connections of the client library

C67: every request made through the client library is settled exactly once: with the answer the server sent to this request
on the connection it was written on, or with an error — when the connection closes, or at the first sweep after the
timeout.  `disconnect()` breaks this: it forgets the outstanding requests without settling them.

C68: after `disconnect()` the client stays disconnected.  This fails when `disconnect()` is called while the client waits
before it connects again; it holds when the client is connected.

C69: a client whose connection is lost, or cannot be made at first, goes on trying to connect until `disconnect()`; it never
makes two connections at a time, and while it is not connected no request is outstanding.
-/

namespace Verif.Sdk

open Verif Verif.Wire

/-- A request is settled at most once, and nothing is settled that was not requested. -/
theorem C67_at_most_once (es : List CEv) (hn : (requests es).Nodup) (tag : Nat) :
    settledTimes tag (Client.outcomes {} es) ≤ 1 ∧ (0 < settledTimes tag (Client.outcomes {} es) → tag ∈ requests es) := by
  have h := conserve_run_le {} es tag
  have h0 : waiting tag ({} : Client).pending = 0 := rfl
  have h1 : (requests es).count tag ≤ 1 := List.nodup_iff_count.mp hn tag
  exact ⟨by omega, fun hp => List.count_pos_iff.mp (by omega)⟩

/-- The answer of a request is the content of a response frame with the id that was written in the frame of that request,
and it came on the same connection. -/
theorem C67_right_answer (es : List CEv) (tag : Nat) (status : UInt8) (data : Bytes)
    (h : (tag, Outcome.answer status data) ∈ Client.outcomes {} es) :
    ∃ a b c T now, ∃ id : Nat, es = a ++ CEv.send tag T now :: b ++ CEv.response id status data :: c ∧
      (Client.run {} a).wrote (.send tag T now) = some (id : Int) ∧ CEv.lost ∉ b ∧ CEv.disconnect ∉ b := by
  obtain ⟨a, e, b, rfl, h'⟩ := outcome_split h
  obtain ⟨id, rfl, p, hp, rfl⟩ := answered_step h'
  obtain ⟨a', b', T, now, rfl, _, hw, hl, hd⟩ := origin a (mget_some_mem hp)
  exact ⟨a', b', b, T, now, id, rfl, hw, hl, hd⟩

/-- Unless `disconnect()` is called, a request is settled at the latest by the first sweep after its timeout.  `partial`:
`disconnect()` and clients that have made more than two thousand million requests (C63) are left out. -/
theorem C67_settled_partial (a b c : List CEv) (tag T now at_ : Nat)
    (hn : (requests (a ++ CEv.send tag T now :: b ++ CEv.sweep at_ :: c)).Nodup)
    (hd : CEv.disconnect ∉ a ++ CEv.send tag T now :: b)
    (hk : frames (a ++ CEv.send tag T now :: b) < 2 ^ 31 - 1) (hat : now + T < at_) :
    ∃ o, (tag, o) ∈ Client.outcomes {} (a ++ CEv.send tag T now :: b ++ CEv.sweep at_ :: c) := by
  have hes : a ++ CEv.send tag T now :: b ++ CEv.sweep at_ :: c = (a ++ CEv.send tag T now :: b ++ [CEv.sweep at_]) ++ c := by simp
  rw [hes] at hn ⊢
  generalize hpre : a ++ CEv.send tag T now :: b = pre at hn hd hk
  have hmem : CEv.send tag T now ∈ pre := by rw [← hpre]; simp
  have hn' : (requests (pre ++ [CEv.sweep at_])).Nodup := by
    rw [requests_append] at hn
    exact (List.nodup_append.mp hn).1
  have hd' : CEv.disconnect ∉ pre ++ [CEv.sweep at_] := by simp [hd]
  have hk' : frames (pre ++ [CEv.sweep at_]) < 2 ^ 31 - 1 := by rw [frames_append]; simpa [frames] using hk
  have heq := conserve_run_eq numbered_init hd' (by omega) tag
  have h0 : waiting tag ({} : Client).pending = 0 := rfl
  have hc : 0 < (requests (pre ++ [CEv.sweep at_])).count tag := List.count_pos_iff.mpr (mem_requests (List.mem_append_left _ hmem))
  have hw : waiting tag (Client.run {} (pre ++ [CEv.sweep at_])).pending = 0 := by
    apply Classical.byContradiction
    intro hw
    obtain ⟨id, p, hm, rfl⟩ := waiting_pos (Nat.pos_of_ne_zero hw)
    obtain ⟨a', b', T', now', he, hdl, _⟩ := origin _ hm
    have hu := send_unique hn' (t := p.tag) (T := T) (now := now) (T' := T') (now' := now')
      (List.mem_append_left _ hmem) (by rw [he]; simp)
    rw [Client.run_snoc] at hm
    have hs : Sound (Client.run {} pre) := Sound.init.run pre
    have hsw : (Client.run {} pre).sweeping = true ∨ (Client.run {} pre).pending = [] := by
      cases hb : (Client.run {} pre).begun with
      | true => exact .inl (hs.sweeps hb (wants_run rfl hd))
      | false => exact .inr (hs.begun hb).2.2.2
    have := swept hsw hm
    omega
  rw [Client.outcomes_append]
  obtain ⟨o, ho⟩ := settled_mem (t := tag) (outs := Client.outcomes {} (pre ++ [CEv.sweep at_])) (by omega)
  exact ⟨o, List.mem_append_left _ ho⟩

/-- Unless `disconnect()` is called, every request has been settled whenever the client is not connected.  `partial` as
`C67_settled_partial`. -/
theorem C67_closed_partial (es : List CEv) (hd : CEv.disconnect ∉ es) (hk : frames es < 2 ^ 31 - 1)
    (hc : (Client.run {} es).connected = false) (tag : Nat) :
    settledTimes tag (Client.outcomes {} es) = (requests es).count tag := by
  have heq := conserve_run_eq numbered_init hd (by omega) tag
  have h0 : waiting tag ({} : Client).pending = 0 := rfl
  rw [(Sound.init.run es).outstanding hc] at heq
  have h1 : waiting tag ([] : List (Int × Pend)) = 0 := rfl
  omega

/-- Four requests: one is answered, one times out, one is made while the connection is lost and one is closed with it. -/
def demo : List CEv :=
  [.connect, .opened, .send 7 100 0, .send 8 10 0, .send 9 1000 0, .response 1 0 [1, 2], .sweep 50, .lost, .send 10 100 60, .timer, .refused,
   .timer, .opened]

example : (requests demo).Nodup ∧ CEv.disconnect ∉ demo ∧ frames demo = 4 ∧
    Client.outcomes {} demo = [(7, .answer 0 [1, 2]), (8, .timeout), (9, .closed), (10, .notConnected)] ∧
    (Client.run {} demo).connected = true := by decide

/-- `disconnect()` leaves an outstanding request without an outcome, whatever happens afterwards. -/
theorem C67_violated : ∃ es tag, tag ∈ requests es ∧ (requests es).Nodup ∧
    ∀ es', tag ∉ requests es' → settledTimes tag (Client.outcomes {} (es ++ es')) = 0 := by
  refine ⟨[.connect, .opened, .send 7 100 0, .disconnect], 7, by decide, by decide, fun es' h => ?_⟩
  rw [Client.outcomes_append, settledTimes_append]
  have h1 := conserve_run_le (Client.run {} [.connect, .opened, .send 7 100 0, .disconnect]) es' 7
  have h2 : (requests es').count 7 = 0 := List.count_eq_zero.mpr h
  have h3 : settledTimes 7 (Client.outcomes {} [.connect, .opened, .send 7 100 0, .disconnect]) = 0 := by decide
  have h4 : waiting 7 (Client.run {} [.connect, .opened, .send 7 100 0, .disconnect]).pending = 0 := by decide
  omega

/-- A client that was told to disconnect, and has no socket and no loop. -/
structure Off (c : Client) : Prop where
  begun : c.begun = true
  off : c.connected = false
  noRetry : c.shouldReconnect = false
  idle : c.asleep = 0 ∧ c.dialing = 0
  socket : c.socket = .closed

theorem Off.step {c : Client} (h : Off c) (e : CEv) : Off (Client.step c e).1 := by
  obtain ⟨h1, h2, h3, ⟨h4, h5⟩, h6⟩ := h
  cases e with
  | connect => simp only [Client.step, h1]; exact ⟨h1, h2, h3, ⟨h4, h5⟩, h6⟩
  | opened => simp only [Client.step, h6]; exact ⟨h1, h2, h3, ⟨h4, h5⟩, h6⟩
  | refused => simp only [Client.step, h6]; exact ⟨h1, h2, h3, ⟨h4, h5⟩, h6⟩
  | lost => simp only [Client.step, h6]; exact ⟨h1, h2, h3, ⟨h4, h5⟩, h6⟩
  | timer => simp only [Client.step, h4]; exact ⟨h1, h2, h3, ⟨h4, h5⟩, h6⟩
  | send tag T now =>
    simp only [Client.step]
    split
    · exact ⟨h1, h2, h3, ⟨h4, h5⟩, h6⟩
    split <;> exact ⟨h1, h2, h3, ⟨h4, h5⟩, h6⟩
  | fire => simp only [Client.step, h2]; exact ⟨h1, h2, h3, ⟨h4, h5⟩, h6⟩
  | response id st d => simp only [Client.step, h6]; exact ⟨h1, h2, h3, ⟨h4, h5⟩, h6⟩
  | sweep now => simp only [Client.step]; split <;> exact ⟨h1, h2, h3, ⟨h4, h5⟩, h6⟩
  | disconnect => exact ⟨h1, rfl, rfl, ⟨h4, rfl⟩, rfl⟩

/-- When `disconnect()` is called while the client is connected, or while it is connecting, it never connects again.
`partial`: the client that waits before it connects again is left out. -/
theorem C68_final_partial (es es' : List CEv) (h : (Client.run {} es).socket ≠ .closed) :
    (Client.run {} (es ++ CEv.disconnect :: es')).connected = false := by
  have hs : Sound (Client.run {} es) := Sound.init.run es
  have ha : (Client.run {} es).asleep = 0 := by
    by_cases ha : (Client.run {} es).asleep = 0
    · exact ha
    · exact absurd (hs.asleep (by omega)) h
  have hb : (Client.run {} es).begun = true := by
    cases hb : (Client.run {} es).begun with
    | true => rfl
    | false => exact absurd (hs.begun hb).1 h
  have hoff : Off ((Client.run {} es).step .disconnect).1 := ⟨hb, rfl, rfl, ⟨ha, rfl⟩, rfl⟩
  have : ∀ (l : List CEv) (c : Client), Off c → Off (c.run l) := by
    intro l
    induction l with
    | nil => intro c h; exact h
    | cons e l ih => intro c h; exact ih _ (h.step e)
  have hes : es ++ CEv.disconnect :: es' = es ++ ([CEv.disconnect] ++ es') := by simp
  rw [hes, Client.run_append, Client.run_append]
  exact (this es' _ hoff).off

example : (Client.run {} demo).socket ≠ .closed := by decide

/-- `disconnect()` during the wait before a new attempt is not obeyed: the client connects, and its requests then have no
timeout, because the sweep was stopped. -/
theorem C68_violated : ∃ es es', (Client.run {} (es ++ CEv.disconnect :: es')).connected = true ∧
    ∀ now, CEv.disconnect ∉ es' ∧
      Client.outcomes {} (es ++ CEv.disconnect :: (es' ++ [.send 7 100 0, .sweep now])) = [] :=
  ⟨[.connect, .opened, .lost], [.timer, .opened], by decide, fun _ => ⟨by decide, rfl⟩⟩

/-- Until `disconnect()` is called the client is connected, or is connecting, or has exactly one timer that will make it
connect; and if the next attempt succeeds it is connected.  There is never more than one loop. -/
theorem C69_keeps_trying (es : List CEv) (hc : CEv.connect ∈ es) (hd : CEv.disconnect ∉ es) :
    let c := Client.run {} es
    c.asleep + c.dialing ≤ 1 ∧
    (c.connected = true ∨
     c.socket = .connecting ∧ (c.step .opened).1.connected = true ∨
     c.socket = .closed ∧ c.asleep = 1 ∧ (c.step .timer).1.socket = .connecting ∧ (c.run [.timer, .opened]).connected = true) := by
  intro c
  have hs : Sound c := Sound.init.run es
  have hb : c.begun = true := begun_run {} es (.inr hc)
  have hr : c.shouldReconnect = true := wants_run rfl hd
  refine ⟨hs.loops, ?_⟩
  cases hk : c.socket with
  | opened => exact .inl (hs.opened.mpr hk)
  | connecting =>
    refine .inr (.inl ⟨rfl, ?_⟩)
    simp only [Client.step, hk]
    split <;> rfl
  | closed =>
    have ha := hs.trying hb hr hk
    refine .inr (.inr ⟨rfl, ha, ?_, ?_⟩)
    · simp [Client.step, ha]
    · simp [Client.run, Client.step, ha]

example : CEv.connect ∈ [CEv.connect, .refused, .timer, .refused] ∧
    (Client.run {} [.connect, .refused, .timer, .refused]).asleep = 1 := by decide

/-- Every lost connection, and every attempt that fails, leads to another attempt. -/
theorem C69_again (es : List CEv) (hc : CEv.connect ∈ es) (hd : CEv.disconnect ∉ es) (e : CEv) (he : e = .lost ∨ e = .refused)
    (hk : (Client.run {} es).socket = if e = .lost then .opened else .connecting) :
    (Client.run {} (es ++ [e, .timer])).socket = .connecting := by
  have hs : Sound (Client.run {} (es ++ [e])) := Sound.init.run _
  have hb : (Client.run {} (es ++ [e])).begun = true := begun_run {} _ (.inr (List.mem_append_left _ hc))
  have hr : (Client.run {} (es ++ [e])).shouldReconnect = true :=
    wants_run rfl (by rcases he with rfl | rfl <;> simp [hd])
  have hcl : ∀ c : Client, c.cleanup.1.socket = .closed := by intro c; unfold Client.cleanup; simp only []; split <;> rfl
  have hcs : (Client.run {} (es ++ [e])).socket = .closed := by
    rw [Client.run_snoc]
    rcases he with rfl | rfl
    · simp only [if_pos] at hk
      simp only [Client.step, hk]
      exact hcl _
    · simp only [reduceCtorEq, if_false] at hk
      simp only [Client.step, hk]
      split <;> exact hcl _
  have ha := hs.trying hb hr hcs
  have hes : es ++ [e, CEv.timer] = (es ++ [e]) ++ [CEv.timer] := by simp
  rw [hes, Client.run_snoc]
  simp [Client.step, ha]

end Verif.Sdk
