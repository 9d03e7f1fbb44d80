import Verif.Proofs.Rpc10
import Verif.Props.StoreRpc

/-!
# C96: no request is lost

The English statement is in `/verif/properties.jsonl`.
-/

namespace Verif.Rpc

open Verif Verif.Wire Verif.Sdk

variable {E I : Type}

/-- **C96.** If no request is larger than the limit: once nothing is on its way between a client and the server, every request
it wrote on its connection, awaited or not, has been carried out. -/
theorem C96_carried_out (pr : Printer) (srv : Server E I) (e0 : E) (es : List (Ev I)) (ho : Ordinary pr srv ((World.init e0).run pr srv es).2)
    (hw : Within pr srv ((World.init e0).run pr srv es).2) {p l : Nat} (hl : (((World.init e0).run pr srv es).1.peers p).link = some l)
    (hq : ((World.init e0).run pr srv es).1.Quiet p) {o : Obs I} (hm : o ∈ ((World.init e0).run pr srv es).2) {id : Nat} {cmd : Cmd}
    (hc : o.wrote l id = some cmd) : ∃ f now r, Obs.executed l f now r ∈ ((World.init e0).run pr srv es).2 ∧ f.id = id := by
  have hi := (holds_run pr srv e0 es ho).1
  have hk := kept_run pr srv e0 es ho hw
  obtain ⟨q1, q2, q3, q6, q4, q5⟩ := hq l hl
  obtain ⟨op, body, _, _, hf⟩ := wrote_frame ho hm hc
  have hin : (⟨1, op, id, body⟩ : Frame) ∈ sentOn pr l ((World.init e0).run pr srv es).2 := List.mem_filterMap.mpr ⟨o, hm, hf⟩
  obtain ⟨rest, h1, h2⟩ := (hi.links l).wire
  obtain ⟨h3, h4⟩ := hk.need l
  have h5 := h2 h3
  rw [q1] at h5
  have hfit := sent_fits hi hw l
  rw [h1] at hfit
  have hr := read_all (fun f hf => hfit f (List.mem_append.mpr (.inr hf))) h5 h4
  rw [h1, hr, List.append_nil, ← (hi.links l).tasks.mem_iff, q2, q3, List.append_nil, List.append_nil] at hin
  obtain ⟨x, hx, he⟩ := List.mem_filterMap.mp hin
  cases x with
  | executed l' f now r =>
    simp only [execOf] at he
    split at he
    · next hll =>
      injection he with he
      subst hll
      exact ⟨f, now, r, hx, by rw [he]⟩
    · cases he
  | called => cases he
  | fired => cases he
  | pushed => cases he
  | ticked => cases he
  | settled => cases he

/-- **C96.** And every promise is settled, except that of a request whose task died (`none`). -/
theorem C96_settled (pr : Printer) (srv : Server E I) (e0 : E) (es : List (Ev I)) (ho : Ordinary pr srv ((World.init e0).run pr srv es).2)
    (hw : Within pr srv ((World.init e0).run pr srv es).2) {p l : Nat} (hl : (((World.init e0).run pr srv es).1.peers p).link = some l)
    (hq : ((World.init e0).run pr srv es).1.Quiet p) {tag id : Nat} {cmd : Cmd}
    (hm : Obs.called p tag cmd (some (l, id)) ∈ ((World.init e0).run pr srv es).2) :
    (∃ o, Obs.settled p tag o ∈ ((World.init e0).run pr srv es).2) ∨
    ∃ f now, Obs.executed l f now none ∈ ((World.init e0).run pr srv es).2 ∧ f.id = id := by
  have hi := (holds_run pr srv e0 es ho).1
  have hk := kept_run pr srv e0 es ho hw
  obtain ⟨q1, q2, q3, q6, q4, q5⟩ := hq l hl
  obtain ⟨f, now, r, hx, hid⟩ := C96_carried_out pr srv e0 es ho hw hl hq hm (id := id) (cmd := cmd) (by simp [Obs.wrote])
  cases r with
  | none => exact .inr ⟨f, now, hx, hid⟩
  | some r =>
    left
    have h1 := hk.outs l f now r hx
    rw [Conn.outs, q4, q6, List.append_nil, List.map_nil, List.append_nil] at h1
    obtain ⟨seen, rest, h2, h3, h4⟩ := hk.seen p l hl
    rw [q5] at h3
    have hfit : ∀ o ∈ rest, o.Fits := fun o ho => (hi.links l).fits.1 o
      (mem_outs.mpr (.inl (by rw [h2]; exact List.mem_append.mpr (.inr ho))))
    have hr := read_all_ts hfit h3 (hk.buf p)
    rw [h2, hr, List.append_nil] at h1
    have h5 := h4 f.id r h1
    rcases hk.calls p tag cmd l id hm hl with ⟨e, b1, b2, b3⟩ | h6
    · exfalso
      apply h5
      rw [hid, b1]
      exact List.mem_map.mpr ⟨e, b2, rfl⟩
    · exact h6

/-- **C96.** A promise whose request was made on a connection that the client no longer has is settled, unless the application
called `disconnect`. -/
theorem C96_connection_lost (pr : Printer) (srv : Server E I) (e0 : E) (es : List (Ev I)) (ho : Ordinary pr srv ((World.init e0).run pr srv es).2)
    (hw : Within pr srv ((World.init e0).run pr srv es).2) {p l : Nat} (hl : (((World.init e0).run pr srv es).1.peers p).link ≠ some l)
    (hd : Ev.lib p .disconnect ∉ es) {tag id : Nat} {cmd : Cmd}
    (hm : Obs.called p tag cmd (some (l, id)) ∈ ((World.init e0).run pr srv es).2) :
    ∃ o, Obs.settled p tag o ∈ ((World.init e0).run pr srv es).2 :=
  gone_run pr srv e0 es ho hw (fun q => q = p) (by rintro q rfl; exact hd) p rfl tag cmd l id hm hl

/-! ### Progress -/

theorem run_append (pr : Printer) (srv : Server E I) (w : World E) (a b : List (Ev I)) :
    (w.run pr srv (a ++ b)).1 = ((w.run pr srv a).1.run pr srv b).1 := by
  induction a generalizing w with
  | nil => rfl
  | cons e a ih => exact ih _

theorem spawn_all (pr : Printer) (srv : Server E I) (l : Nat) (n : Nat) : ∀ (w : World E), (w.links l).conn.inbound.length = n → (w.links l).ended = false →
    ∃ es : List (Ev I), (∀ e ∈ es, e.works l = true) ∧ (w.run pr srv es).1.peers = w.peers ∧
      ((w.run pr srv es).1.links l).ended = false ∧ ((w.run pr srv es).1.links l).conn.inbound = [] ∧
      ((w.run pr srv es).1.links l).toServer = (w.links l).toServer ∧ ((w.run pr srv es).1.links l).peer = (w.links l).peer := by
  induction n with
  | zero => intro w hn he; exact ⟨[], (fun e h => nomatch h), rfl, he, List.eq_nil_of_length_eq_zero hn, rfl, rfl⟩
  | succ n ih =>
    intro w hn he
    cases hin : (w.links l).conn.inbound with
    | nil => rw [hin] at hn; cases hn
    | cons f rest =>
      rw [hin] at hn
      have h1 : ((w.step pr srv (.server l 0 .spawn)).1.links l).conn.inbound = rest ∧ ((w.step pr srv (.server l 0 .spawn)).1.links l).ended = false ∧
          (w.step pr srv (.server l 0 .spawn)).1.peers = w.peers ∧
          ((w.step pr srv (.server l 0 .spawn)).1.links l).toServer = (w.links l).toServer ∧
          ((w.step pr srv (.server l 0 .spawn)).1.links l).peer = (w.links l).peer := by
        simp [World.step, he, Conn.step, hin]
      obtain ⟨es, h2, h3, h4, h5, h6, h7⟩ := ih (w.step pr srv (.server l 0 .spawn)).1 (by rw [h1.1]; simpa using hn) h1.2.1
      refine ⟨.server l 0 .spawn :: es, ?_, h3.trans h1.2.2.1, h4, h5, h6.trans h1.2.2.2.1, h7.trans h1.2.2.2.2⟩
      intro e hm
      rcases List.mem_cons.mp hm with rfl | hm
      · simp [Ev.works]
      · exact h2 e hm

theorem complete_all (pr : Printer) (srv : Server E I) (l now : Nat) (n : Nat) : ∀ (w : World E), (w.links l).conn.running.length = n →
    ∃ es : List (Ev I), (∀ e ∈ es, e.works l = true) ∧ (w.run pr srv es).1.peers = w.peers ∧
      ((w.run pr srv es).1.links l).ended = (w.links l).ended ∧ ((w.run pr srv es).1.links l).conn.inbound = (w.links l).conn.inbound ∧
      ((w.run pr srv es).1.links l).toServer = (w.links l).toServer ∧ ((w.run pr srv es).1.links l).peer = (w.links l).peer ∧
      ((w.run pr srv es).1.links l).conn.running = [] := by
  induction n with
  | zero => intro w hn; exact ⟨[], (fun e h => nomatch h), rfl, rfl, rfl, rfl, rfl, List.eq_nil_of_length_eq_zero hn⟩
  | succ n ih =>
    intro w hn
    cases hin : (w.links l).conn.running with
    | nil => rw [hin] at hn; cases hn
    | cons f rest =>
      rw [hin] at hn
      have h1 : ((w.step pr srv (.server l now (.complete 0))).1.links l).conn.running = rest ∧
          ((w.step pr srv (.server l now (.complete 0))).1.links l).ended = (w.links l).ended ∧
          (w.step pr srv (.server l now (.complete 0))).1.peers = w.peers ∧
          ((w.step pr srv (.server l now (.complete 0))).1.links l).toServer = (w.links l).toServer ∧
          ((w.step pr srv (.server l now (.complete 0))).1.links l).conn.inbound = (w.links l).conn.inbound ∧
          ((w.step pr srv (.server l now (.complete 0))).1.links l).peer = (w.links l).peer := by
        simp [World.step, Conn.step, hin]
      obtain ⟨es, h2, h3, h4, h5, h6, h7, h8⟩ := ih (w.step pr srv (.server l now (.complete 0))).1 (by rw [h1.1]; simpa using hn)
      refine ⟨.server l now (.complete 0) :: es, ?_, h3.trans h1.2.2.1, h4.trans h1.2.1, h5.trans h1.2.2.2.2.1, h6.trans h1.2.2.2.1, h7.trans h1.2.2.2.2.2, h8⟩
      intro e hm
      rcases List.mem_cons.mp hm with rfl | hm
      · simp [Ev.works]
      · exact h2 e hm

theorem post_all (pr : Printer) (srv : Server E I) (l : Nat) (n : Nat) : ∀ (w : World E), (w.links l).conn.answered.length = n → (w.links l).ended = false →
    ∃ es : List (Ev I), (∀ e ∈ es, e.works l = true) ∧ (w.run pr srv es).1.peers = w.peers ∧
      ((w.run pr srv es).1.links l).conn.inbound = (w.links l).conn.inbound ∧ ((w.run pr srv es).1.links l).conn.running = (w.links l).conn.running ∧
      ((w.run pr srv es).1.links l).toServer = (w.links l).toServer ∧ ((w.run pr srv es).1.links l).peer = (w.links l).peer ∧
      ((w.run pr srv es).1.links l).ended = false ∧ ((w.run pr srv es).1.links l).conn.answered = [] := by
  induction n with
  | zero => intro w hn he; exact ⟨[], (fun e h => nomatch h), rfl, rfl, rfl, rfl, rfl, he, List.eq_nil_of_length_eq_zero hn⟩
  | succ n ih =>
    intro w hn he
    cases hin : (w.links l).conn.answered with
    | nil => rw [hin] at hn; cases hn
    | cons f rest =>
      rw [hin] at hn
      have h1 : ((w.step pr srv (.server l 0 (.post 0))).1.links l).conn.answered = rest ∧ ((w.step pr srv (.server l 0 (.post 0))).1.links l).ended = false ∧
          (w.step pr srv (.server l 0 (.post 0))).1.peers = w.peers ∧
          ((w.step pr srv (.server l 0 (.post 0))).1.links l).toServer = (w.links l).toServer ∧
          ((w.step pr srv (.server l 0 (.post 0))).1.links l).conn.inbound = (w.links l).conn.inbound ∧
          ((w.step pr srv (.server l 0 (.post 0))).1.links l).conn.running = (w.links l).conn.running ∧
          ((w.step pr srv (.server l 0 (.post 0))).1.links l).peer = (w.links l).peer := by
        simp [World.step, he, Conn.step, hin]
      obtain ⟨es, h2, h3, h4, h5, h6, h7, h8⟩ := ih (w.step pr srv (.server l 0 (.post 0))).1 (by rw [h1.1]; simpa using hn) h1.2.1
      refine ⟨.server l 0 (.post 0) :: es, ?_, h3.trans h1.2.2.1, h4.trans h1.2.2.2.2.1, h5.trans h1.2.2.2.2.2.1, h6.trans h1.2.2.2.1, h7.trans h1.2.2.2.2.2.2, h8⟩
      intro e hm
      rcases List.mem_cons.mp hm with rfl | hm
      · simp [Ev.works]
      · exact h2 e hm

theorem write_all (pr : Printer) (srv : Server E I) (l : Nat) (n : Nat) : ∀ (w : World E), (w.links l).conn.outbound.length = n → (w.links l).ended = false →
    ∃ es : List (Ev I), (∀ e ∈ es, e.works l = true) ∧ (w.run pr srv es).1.peers = w.peers ∧
      ((w.run pr srv es).1.links l).conn.inbound = (w.links l).conn.inbound ∧ ((w.run pr srv es).1.links l).conn.running = (w.links l).conn.running ∧
      ((w.run pr srv es).1.links l).toServer = (w.links l).toServer ∧ ((w.run pr srv es).1.links l).peer = (w.links l).peer ∧
      ((w.run pr srv es).1.links l).conn.answered = (w.links l).conn.answered ∧ ((w.run pr srv es).1.links l).conn.outbound = [] := by
  induction n with
  | zero => intro w hn _; exact ⟨[], (fun e h => nomatch h), rfl, rfl, rfl, rfl, rfl, rfl, List.eq_nil_of_length_eq_zero hn⟩
  | succ n ih =>
    intro w hn he
    cases hin : (w.links l).conn.outbound with
    | nil => rw [hin] at hn; cases hn
    | cons f rest =>
      rw [hin] at hn
      have h1 : ((w.step pr srv (.server l 0 .write)).1.links l).conn.outbound = rest ∧ ((w.step pr srv (.server l 0 .write)).1.links l).ended = false ∧
          (w.step pr srv (.server l 0 .write)).1.peers = w.peers ∧
          ((w.step pr srv (.server l 0 .write)).1.links l).toServer = (w.links l).toServer ∧
          ((w.step pr srv (.server l 0 .write)).1.links l).conn.inbound = (w.links l).conn.inbound ∧
          ((w.step pr srv (.server l 0 .write)).1.links l).conn.running = (w.links l).conn.running ∧
          ((w.step pr srv (.server l 0 .write)).1.links l).peer = (w.links l).peer ∧
          ((w.step pr srv (.server l 0 .write)).1.links l).conn.answered = (w.links l).conn.answered := by
        simp [World.step, he, Conn.step, hin]
      obtain ⟨es, h2, h3, h4, h5, h6, h7, h8, h9⟩ := ih (w.step pr srv (.server l 0 .write)).1 (by rw [h1.1]; simpa using hn) h1.2.1
      refine ⟨.server l 0 .write :: es, ?_, h3.trans h1.2.2.1, h4.trans h1.2.2.2.2.1, h5.trans h1.2.2.2.2.2.1, h6.trans h1.2.2.2.1, h7.trans h1.2.2.2.2.2.2.1, h8.trans h1.2.2.2.2.2.2.2, h9⟩
      intro e hm
      rcases List.mem_cons.mp hm with rfl | hm
      · simp [Ev.works]
      · exact h2 e hm

/-- **C96.** Nothing ever gets stuck: from every state, as long as the connection is not ended, the network and the server's
tasks can go on, by themselves, until nothing is on its way any more; the client stays connected meanwhile. -/
theorem C96_progress (pr : Printer) (srv : Server E I) (w : World E) (now : Nat) {p l : Nat} (hl : (w.peers p).link = some l) (hp : (w.links l).peer = p)
    (he : (w.links l).ended = false) :
    ∃ es : List (Ev I), (∀ e ∈ es, e.works l = true) ∧ ((w.run pr srv es).1.peers p).link = some l ∧ (w.run pr srv es).1.Quiet p := by
  generalize hw1 : (w.step pr srv (.toServer l (w.links l).toServer.length)).1 = w1
  have a1 : (w1.links l).toServer = [] ∧ (w1.links l).ended = false ∧ w1.peers = w.peers ∧ (w1.links l).peer = p := by
    rw [← hw1]
    simp [World.step, he, hp]
  obtain ⟨e2, b1, b2, b3, b4, b5, b6⟩ := spawn_all pr srv l _ w1 rfl a1.2.1
  generalize hw2 : (w1.run pr srv e2).1 = w2 at b2 b3 b4 b5 b6
  obtain ⟨e3, c1, c2, c3, c4, c5, c6, c7⟩ := complete_all pr srv l now _ w2 rfl
  generalize hw3 : (w2.run pr srv e3).1 = w3 at c2 c3 c4 c5 c6 c7
  obtain ⟨e5, f1, f2, f3, f4, f5, f6, f7, f8⟩ := post_all pr srv l _ w3 rfl (c3.trans b3)
  generalize hw5 : (w3.run pr srv e5).1 = w5 at f2 f3 f4 f5 f6 f7 f8
  obtain ⟨e4, d1, d2, d3, d4, d5, d6, d8, d7⟩ := write_all pr srv l _ w5 rfl f7
  generalize hw4 : (w5.run pr srv e4).1 = w4 at d2 d3 d4 d5 d6 d7 d8
  have hpeers : w4.peers = w.peers := d2.trans (f2.trans (c2.trans (b2.trans a1.2.2.1)))
  have hpeer : (w4.links l).peer = p := d6.trans (f6.trans (c6.trans (b6.trans a1.2.2.2)))
  have hl4 : (w4.peers (w4.links l).peer).link = some l := by rw [hpeer, hpeers]; exact hl
  have hrun : (w.run pr srv (.toServer l (w.links l).toServer.length :: (e2 ++ (e3 ++ (e5 ++ (e4 ++ [.toClient l (w4.links l).toClient.length])))))).1 =
      (w4.step pr srv (.toClient l (w4.links l).toClient.length)).1 := by
    show ((w.step pr srv (.toServer l (w.links l).toServer.length)).1.run pr srv _).1 = _
    rw [hw1, run_append, hw2, run_append, hw3, run_append, hw5, run_append, hw4]; rfl
  refine ⟨.toServer l (w.links l).toServer.length :: (e2 ++ (e3 ++ (e5 ++ (e4 ++ [.toClient l (w4.links l).toClient.length])))), ?_, ?_, ?_⟩
  · intro e hm
    simp only [List.mem_cons, List.mem_append, List.not_mem_nil, or_false] at hm
    rcases hm with rfl | hm | hm | hm | hm | rfl
    · simp [Ev.works]
    · exact b1 e hm
    · exact c1 e hm
    · exact f1 e hm
    · exact d1 e hm
    · simp [Ev.works]
  · rw [hrun]
    simp only [World.step, hl4, if_true]
    rw [hpeer, upd_same, hpeers]
  · rw [hrun]
    intro l' hl'
    simp only [World.step, hl4, if_true] at hl' ⊢
    rw [hpeer, upd_same, hpeers] at hl'
    have : l' = l := by have h : some l = some l' := hl'; injection h with h; exact h.symm
    subst this
    rw [upd_same]
    exact ⟨d5.trans (f5.trans (c5.trans (b5.trans a1.1))), d3.trans (f3.trans (c4.trans b4)), d4.trans (f4.trans c7), d8.trans f8, d7, by simp⟩

/-! ### A concrete run -/

theorem exWithin : Within exPrinter exServer exTrace := by
  intro o ho cmd hc op body hb
  simp only [exTrace, List.mem_cons, List.not_mem_nil, or_false] at ho
  rcases ho with rfl | rfl | rfl | rfl | rfl | rfl | rfl <;> simp only [Obs.cmd?, reduceCtorEq] at hc <;> injection hc with hc <;> subst hc <;>
    (injection hb with hb; injection hb with h1 h2; subst h2; decide)

set_option maxRecDepth 100000 in
/-- At the end of `exEvents` nothing is under way, and both promises are settled. -/
example : (((World.init []).run exPrinter exServer exEvents).1.peers 0).link = some 0 ∧
    (((World.init []).run exPrinter exServer exEvents).1.peers 1).link = some 1 ∧
    (((World.init []).run exPrinter exServer exEvents).1.links 1).toClient = [] ∧
    (((World.init []).run exPrinter exServer exEvents).1.links 1).conn.outbound.length = 0 ∧
    Obs.called 1 2 (.mapGet [97]) (some (1, 1)) ∈ exTrace := by
  refine ⟨by decide, by decide, by decide, by decide, by decide⟩

set_option maxRecDepth 100000 in
/-- A connection lost in the middle of a request: the client knows, and the promise is settled. -/
example : ((World.init []).run exPrinter exServer (exEvents.take 7 ++ [.drop 0, .lib 0 .lost])).2 =
    [.called 0 1 (.mapSet [97] ⟨none⟩ (tsAny (.raw [7]))) (some (0, 1)), .settled 0 1 .closed] := by decide

end Verif.Rpc
