import Verif.Proofs.Rpc6

/-!
# Lemmas about clients, network and server together: counting, and the order of call, execution and answer
-/

namespace Verif.Rpc

open Verif Verif.Wire Verif.Sdk

variable {E I : Type}

theorem Inv.exec_nodup {pr : Printer} {w : World E} {tr : List (Obs I)} (h : Inv pr w tr) (l : Nat) :
    ((execOn l tr).map Frame.id).Nodup := by
  obtain ⟨rest, h1, _⟩ := (h.links l).wire
  have h2 := h.sorted l
  rw [h1, List.pairwise_append] at h2
  have h3 : ((w.links l).reader.frames.map Frame.id).Nodup := by
    rw [List.Nodup, List.pairwise_map]
    exact h2.1.imp (fun h => Nat.ne_of_lt h)
  have h4 := ((h.links l).tasks.map Frame.id).nodup_iff.mpr h3
  rw [List.append_assoc, List.map_append] at h4
  exact (List.nodup_append.mp h4).1

/-- The execution of a request comes after the request was written. -/
theorem exec_after {pr : Printer} {srv : Server E I} {e0 : E} {w : World E} {tr : List (Obs I)} (hi : Inv pr w tr) (hf : Facts pr srv e0 w tr)
    (ho : Ordinary pr srv tr) {o : Obs I} {l : Nat} {f : Frame} {now : Nat} {r : Option Response} {cmd : Cmd} (hm : o ∈ tr) (hw : o.wrote l f.id = some cmd)
    {x y : List (Obs I)} (hs : tr = x ++ .executed l f now r :: y) :
    o ∈ x ∧ cmdAt l f.id x = some cmd ∧ r = (srv.exec l now cmd (state srv e0 x)).2 := by
  obtain ⟨cmd', h1, h2, h3⟩ := hf.shown x _ y hs
  obtain ⟨o', hm', hw'⟩ := cmdAt_mem h1
  have heq := hi.unique ho (by rw [hs]; exact List.mem_append.mpr (.inl hm')) hm hw' hw
  subst heq
  rw [hw] at hw'
  injection hw' with hw'
  subst hw'
  exact ⟨hm', h1, h3⟩

/-! ### Settlements -/

theorem timesSettled_append (p tag : Nat) (a b : List (Obs I)) : timesSettled p tag (a ++ b) = timesSettled p tag a + timesSettled p tag b := List.countP_append

theorem timesCalled_append (p tag : Nat) (a b : List (Obs I)) : timesCalled p tag (a ++ b) = timesCalled p tag a + timesCalled p tag b := List.countP_append

theorem timesSettled_settle (p q tag : Nat) (outs : List (Nat × Outcome)) :
    timesSettled p tag (settle q outs : List (Obs I)) = if q = p then settledTimes tag outs else 0 := by
  unfold timesSettled settle settledTimes
  rw [List.countP_map]
  by_cases hq : q = p
  · rw [if_pos hq, List.count, List.countP_map]
    congr 1
    funext x
    simp [hq, Bool.beq_eq_decide_eq]
  · rw [if_neg hq, List.countP_eq_zero]
    intro x _
    simp [hq]

theorem timesCalled_settle (p q tag : Nat) (outs : List (Nat × Outcome)) : timesCalled p tag (settle q outs : List (Obs I)) = 0 := by
  unfold timesCalled settle
  rw [List.countP_map, List.countP_eq_zero]
  intro x _
  simp

theorem requests_responses (fs : List Frame) (tag : Nat) : (requests (responses fs)).count tag = 0 := by
  induction fs with
  | nil => rfl
  | cons f fs ih =>
    unfold responses
    split
    · exact ih
    · exact ih

theorem outside_requests {e : CEv} (h : outside e = true) (t : Nat) : (requests [e]).count t = 0 := by cases e <;> first | rfl | cases h

theorem timesSettled_cons_called (p q tag t : Nat) (c : Cmd) (s : Option (Nat × Nat)) (tr : List (Obs I)) :
    timesSettled p tag (.called q t c s :: tr) = timesSettled p tag tr := by simp [timesSettled, List.countP_cons]

theorem timesCalled_cons_called (p q tag t : Nat) (c : Cmd) (s : Option (Nat × Nat)) (tr : List (Obs I)) :
    timesCalled p tag (.called q t c s :: tr) = timesCalled p tag tr + if q = p ∧ t = tag then 1 else 0 := by
  simp only [timesCalled, List.countP_cons]
  by_cases h : q = p ∧ t = tag <;> simp [h]

/-- No promise is settled more often than requests were made under its name. -/
theorem settled_le (pr : Printer) (srv : Server E I) (w : World E) (e : Ev I) (tr : List (Obs I)) (p tag : Nat)
    (h : timesSettled p tag tr + waiting tag (w.peers p).lib.pending ≤ timesCalled p tag tr) :
    timesSettled p tag (tr ++ (w.step pr srv e).2) + waiting tag ((w.step pr srv e).1.peers p).lib.pending ≤
      timesCalled p tag (tr ++ (w.step pr srv e).2) := by
  rw [timesSettled_append, timesCalled_append]
  -- a step of client `q` alone
  have one : ∀ (q : Nat) (x : Peer) (outs : List (Nat × Outcome)) (k : Nat),
      (∀ t, settledTimes t outs + waiting t x.lib.pending ≤ waiting t (w.peers q).lib.pending + if t = tag then k else 0) →
      timesSettled p tag tr + timesSettled p tag (settle q outs : List (Obs I)) + waiting tag (upd w.peers q x p).lib.pending ≤ timesCalled p tag tr + if q = p then k else 0 := by
    intro q x outs k hk
    rw [timesSettled_settle]
    by_cases hq : q = p
    · subst hq
      rw [upd_same, if_pos rfl, if_pos rfl]
      have := hk tag
      rw [if_pos rfl] at this
      omega
    · rw [upd_other _ _ (Ne.symm hq), if_neg hq, if_neg hq]; omega
  cases e with
  | lib q e =>
    simp only [World.step]
    cases hout : outside e with
    | false => simpa [timesSettled, timesCalled] using h
    | true =>
      simp only [Bool.not_true, Bool.false_eq_true, if_false]
      have hle : ∀ t, settledTimes t ((w.peers q).lib.step e).2 + waiting t ((w.peers q).lib.step e).1.pending ≤
          waiting t (w.peers q).lib.pending + if t = tag then 0 else 0 := by
        intro t
        have := conserve_le (w.peers q).lib e t
        rw [outside_requests hout] at this
        split <;> exact this
      split
      · have := one q { (w.peers q) with lib := ((w.peers q).lib.step e).1, link := some w.made } _ 0 hle
        rw [timesCalled_settle]
        simpa using this
      · have hlib : ((w.peers q).after e ((w.peers q).lib.step e).1).lib = ((w.peers q).lib.step e).1 := by
          unfold Peer.after
          split
          · rfl
          · split <;> rfl
        have := one q ((w.peers q).after e ((w.peers q).lib.step e).1) _ 0 (by rw [hlib]; exact hle)
        rw [timesCalled_settle]
        simpa using this
  | call q t T now cmd =>
    have hle : ∀ t', settledTimes t' ((w.peers q).lib.step (.send t T now)).2 + waiting t' ((w.peers q).lib.step (.send t T now)).1.pending ≤
        waiting t' (w.peers q).lib.pending + if t' = tag then (if t = tag then 1 else 0) else (if t = t' then 1 else 0) := by
      intro t'
      have := conserve_le (w.peers q).lib (.send t T now) t'
      simp only [requests, List.count_cons, List.count_nil, Nat.zero_add, beq_iff_eq] at this
      split
      · next h => subst h; exact this
      · exact this
    have key : ∀ x : Peer, x.lib = ((w.peers q).lib.step (.send t T now)).1 →
        timesSettled p tag tr + timesSettled p tag (settle q ((w.peers q).lib.step (.send t T now)).2 : List (Obs I)) + waiting tag (upd w.peers q x p).lib.pending ≤
          timesCalled p tag tr + if q = p ∧ t = tag then 1 else 0 := by
      intro x hx
      rw [timesSettled_settle]
      by_cases hq : q = p
      · subst hq
        rw [upd_same, if_pos rfl, hx]
        have := hle tag
        rw [if_pos rfl] at this
        by_cases ht : t = tag
        · simp only [ht, and_self, if_true] at this ⊢; omega
        · simp only [ht, and_false, if_false] at this ⊢; omega
      · rw [upd_other _ _ (Ne.symm hq), if_neg hq]; omega
    simp only [World.step]
    split
    · rw [timesSettled_cons_called, timesCalled_cons_called]
      have h1 : timesSettled p tag ([.settled q t .threw] : List (Obs I)) = if q = p ∧ t = tag then 1 else 0 := by
        by_cases hq : q = p ∧ t = tag <;> simp [timesSettled, hq]
      have h2 : timesCalled p tag ([.settled q t .threw] : List (Obs I)) = 0 := by simp [timesCalled]
      have h3 : ∀ x : Peer, x.lib.pending = (w.peers q).lib.pending → (upd w.peers q x p).lib.pending = (w.peers p).lib.pending := by
        intro x hx
        by_cases hq : p = q
        · subst hq; rw [upd_same]; exact hx
        · rw [upd_other _ _ hq]
      rw [h1, h2]
      simp only []
      rw [h3 { (w.peers q) with lib := { (w.peers q).lib with nextId := tsNextId (w.peers q).lib.nextId } } rfl]
      omega
    · split
      · rw [timesSettled_cons_called, timesCalled_cons_called, timesCalled_settle, Nat.zero_add]
        exact key { (w.peers q) with lib := ((w.peers q).lib.step (.send t T now)).1 } rfl
      · rw [timesSettled_cons_called, timesCalled_cons_called, timesCalled_settle, Nat.zero_add]
        exact key { (w.peers q) with lib := ((w.peers q).lib.step (.send t T now)).1 } rfl
  | fire q cmd =>
    have hpend : ((w.peers q).lib.step .fire).1.pending = (w.peers q).lib.pending := by simp only [Client.step]; split <;> rfl
    have hx : waiting tag (upd w.peers q { (w.peers q) with lib := ((w.peers q).lib.step .fire).1 } p).lib.pending = waiting tag (w.peers p).lib.pending := by
      by_cases hq : p = q
      · subst hq; rw [upd_same]; simp only [hpend]
      · rw [upd_other _ _ hq]
    have h0 : ∀ s, timesSettled p tag ([.fired q cmd s] : List (Obs I)) = 0 ∧ timesCalled p tag ([.fired q cmd s] : List (Obs I)) = 0 := by
      intro s; simp [timesSettled, timesCalled]
    simp only [World.step]
    split
    · rw [(h0 _).1, (h0 _).2]; simp only [hx]; omega
    · split
      · rw [(h0 _).1, (h0 _).2]; simp only [World.write, hx]; omega
      · rw [(h0 _).1, (h0 _).2]; simp only [hx]; omega
  | toServer l n => simp only [World.step]; split <;> simpa [timesSettled, timesCalled] using h
  | server l now e =>
    have h0 : ∀ (new : List (Obs I)), (∀ o ∈ new, (∃ a b c d, o = Obs.executed a b c d) ∨ ∃ a b, o = Obs.pushed a b) → timesSettled p tag new = 0 ∧ timesCalled p tag new = 0 := by
      intro new hn
      constructor
      · unfold timesSettled
        rw [List.countP_eq_zero]
        intro o ho
        rcases hn o ho with ⟨a, b, c, d, rfl⟩ | ⟨a, b, rfl⟩ <;> simp
      · unfold timesCalled
        rw [List.countP_eq_zero]
        intro o ho
        rcases hn o ho with ⟨a, b, c, d, rfl⟩ | ⟨a, b, rfl⟩ <;> simp
    have hpe : (w.step pr srv (.server l now e)).1.peers = w.peers ∧
        ∀ o ∈ (w.step pr srv (.server l now e)).2, (∃ a b c d, o = Obs.executed a b c d) ∨ ∃ a b, o = Obs.pushed a b := by
      cases e with
      | read f => exact ⟨rfl, fun o ho => nomatch ho⟩
      | complete i =>
        refine ⟨rfl, ?_⟩
        simp only [World.step]
        split
        · exact fun o ho => nomatch ho
        · intro o ho; rw [List.mem_singleton.mp ho]; exact .inl ⟨_, _, _, _, rfl⟩
      | pushed pk =>
        simp only [World.step]
        split
        · exact ⟨rfl, fun o ho => nomatch ho⟩
        · refine ⟨rfl, ?_⟩
          intro o ho; rw [List.mem_singleton.mp ho]; exact .inr ⟨_, _, rfl⟩
      | spawn => simp only [World.step]; split <;> exact ⟨rfl, fun o ho => nomatch ho⟩
      | bridge => simp only [World.step]; split <;> exact ⟨rfl, fun o ho => nomatch ho⟩
      | write => simp only [World.step]; split <;> exact ⟨rfl, fun o ho => nomatch ho⟩
      | post i => simp only [World.step]; split <;> exact ⟨rfl, fun o ho => nomatch ho⟩
    rw [hpe.1, (h0 _ hpe.2).1, (h0 _ hpe.2).2]; omega
  | drop l => simpa [World.step, timesSettled, timesCalled] using h
  | tick x => simpa [World.step, timesSettled, timesCalled] using h
  | toClient l n =>
    simp only [World.step]
    split
    · rw [timesCalled_settle]
      have := one (w.links l).peer (x := { w.peers (w.links l).peer with
          lib := (w.peers (w.links l).peer).lib.run (responses (tsDrain ((w.peers (w.links l).peer).buf ++ (w.links l).toClient.take n)).1)
          buf := (tsDrain ((w.peers (w.links l).peer).buf ++ (w.links l).toClient.take n)).2 })
        (outs := (w.peers (w.links l).peer).lib.outcomes (responses (tsDrain ((w.peers (w.links l).peer).buf ++ (w.links l).toClient.take n)).1)) (k := 0)
        (fun t => by
          have := conserve_run_le (w.peers (w.links l).peer).lib (responses (tsDrain ((w.peers (w.links l).peer).buf ++ (w.links l).toClient.take n)).1) t
          rw [requests_responses] at this
          simpa using this)
      simpa using this
    · simpa [timesSettled, timesCalled] using h

theorem settled_run (pr : Printer) (srv : Server E I) (e0 : E) (es : List (Ev I)) (p tag : Nat) :
    timesSettled p tag ((World.init e0).run pr srv es).2 + waiting tag (((World.init e0).run pr srv es).1.peers p).lib.pending ≤
      timesCalled p tag ((World.init e0).run pr srv es).2 := by
  induction es using Sdk.snoc_ind with
  | h0 => exact Nat.le_refl _
  | h1 es e ih => rw [run_snoc]; exact settled_le pr srv _ e _ p tag ih

end Verif.Rpc
