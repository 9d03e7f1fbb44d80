import Verif.Proofs.Rpc7

/-!
# C93, C95: requests between clients and server

The English statements are in `/verif/properties.jsonl`.
-/

namespace Verif.Rpc

open Verif Verif.Wire Verif.Sdk

variable {E I : Type}

/-! ## C93 -/

/-- **C93.** Whatever the clients, the network and the server's tasks do: no request is carried out twice. -/
theorem C93_once (pr : Printer) (srv : Server E I) (e0 : E) (es : List (Ev I)) (ho : Ordinary pr srv ((World.init e0).run pr srv es).2)
    {a b : List (Obs I)} {l now : Nat} {f : Frame} {r : Option Response}
    (hs : ((World.init e0).run pr srv es).2 = a ++ .executed l f now r :: b) :
    ∀ f' now' r', Obs.executed l f' now' r' ∈ a ++ b → f'.id ≠ f.id := by
  have hn := (holds_run pr srv e0 es ho).1.exec_nodup l
  rw [hs] at hn
  intro f' now' r' hm heq
  have h1 : execOn l (a ++ .executed l f now r :: b) = execOn l a ++ f :: execOn l b := by
    rw [execOn_append]
    congr 1
    simp [execOn, execOf]
  have h2 : f' ∈ execOn l a ++ execOn l b := by
    rw [← execOn_append]
    exact List.mem_filterMap.mpr ⟨_, hm, by simp [execOf]⟩
  rw [h1] at hn
  have h3 : ((f :: (execOn l a ++ execOn l b)).map Frame.id).Nodup :=
    ((List.perm_middle (l₁ := execOn l a) (a := f) (l₂ := execOn l b)).map Frame.id).nodup_iff.mp hn
  rw [List.map_cons, List.nodup_cons] at h3
  exact h3.1 (List.mem_map.mpr ⟨f', h2, heq⟩)

/-- **C93.** What is carried out was asked for before, on the same connection and under the same id; it is carried out as
the command that was asked for, on the engine as the executions so far have left it, and its result is the one that command
gives there. -/
theorem C93_asked (pr : Printer) (srv : Server E I) (e0 : E) (es : List (Ev I)) (ho : Ordinary pr srv ((World.init e0).run pr srv es).2)
    {a b : List (Obs I)} {l now : Nat} {f : Frame} {r : Option Response}
    (hs : ((World.init e0).run pr srv es).2 = a ++ .executed l f now r :: b) :
    ∃ o ∈ a, ∃ cmd, o.wrote l f.id = some cmd ∧ r = (srv.exec l now cmd (state srv e0 a)).2 ∧
      state srv e0 (a ++ [.executed l f now r]) = (srv.exec l now cmd (state srv e0 a)).1 := by
  obtain ⟨cmd, h1, _, h3⟩ := (holds_run pr srv e0 es ho).2.shown a _ b hs
  obtain ⟨o, hm, hw⟩ := cmdAt_mem h1
  refine ⟨o, hm, cmd, hw, h3, ?_⟩
  rw [state_snoc]
  simp only [effect, h1]

/-- **C93.** A promise that is settled with an answer: its request was made before; between the two it was carried out, as
the command that was asked for, and the answer is what it gave there. -/
theorem C93_answered (pr : Printer) (srv : Server E I) (e0 : E) (es : List (Ev I)) (ho : Ordinary pr srv ((World.init e0).run pr srv es).2)
    {a b : List (Obs I)} {p tag : Nat} {st : UInt8} {d : Bytes}
    (hs : ((World.init e0).run pr srv es).2 = a ++ .settled p tag (.answer st d) :: b) :
    ∃ a₁ a₂ a₃ cmd l f now r, a = a₁ ++ .called p tag cmd (some (l, f.id)) :: a₂ ++ .executed l f now (some r) :: a₃ ∧
      some r = (srv.exec l now cmd (state srv e0 (a₁ ++ .called p tag cmd (some (l, f.id)) :: a₂))).2 ∧ shows r = (st, d) := by
  obtain ⟨hi, hf⟩ := holds_run pr srv e0 es ho
  obtain ⟨cmd, l, f, now, r, h1, h2, h3⟩ := hf.shown a _ b hs
  obtain ⟨x, y, hxy⟩ := List.append_of_mem h2
  have hw : (Obs.called p tag cmd (some (l, f.id)) : Obs I).wrote l f.id = some cmd := by simp [Obs.wrote]
  obtain ⟨k1, _, k3⟩ := exec_after hi hf ho (o := .called p tag cmd (some (l, f.id))) (x := x)
    (by rw [hs]; exact List.mem_append.mpr (.inl h1)) hw (by rw [hs, hxy, List.append_assoc, List.cons_append])
  obtain ⟨x1, x2, hx⟩ := List.append_of_mem k1
  refine ⟨x1, x2, y, cmd, l, f, now, r, by rw [hxy, hx], by rw [← hx]; exact k3, ?_⟩
  cases r <;> (simp only [Outbound.frame] at h3; injection h3 with _ h4 _ h5; simp [shows, h4, h5])

/-- **C93.** The engine is what carrying out the requests one after the other, in the order of the trace, makes of it. -/
theorem C93_state (pr : Printer) (srv : Server E I) (e0 : E) (es : List (Ev I)) (ho : Ordinary pr srv ((World.init e0).run pr srv es).2) :
    ((World.init e0).run pr srv es).1.engine = state srv e0 ((World.init e0).run pr srv es).2 := (holds_run pr srv e0 es ho).2.engine

/-- **C93.** Real time: a request made after another one was answered is carried out after it, whichever clients made them. -/
theorem C93_real_time (pr : Printer) (srv : Server E I) (e0 : E) (es : List (Ev I)) (ho : Ordinary pr srv ((World.init e0).run pr srv es).2)
    {a b : List (Obs I)} {p tag : Nat} {st : UInt8} {d : Bytes}
    (hs : ((World.init e0).run pr srv es).2 = a ++ .settled p tag (.answer st d) :: b)
    {o : Obs I} {l : Nat} {f : Frame} {cmd : Cmd} (hm : o ∈ b) (hw : o.wrote l f.id = some cmd) {x y : List (Obs I)} {now : Nat} {r : Option Response}
    (hx : ((World.init e0).run pr srv es).2 = x ++ .executed l f now r :: y) :
    ∃ a₁ a₂ cmd' l' f' now' r', a = a₁ ++ .executed l' f' now' (some r') :: a₂ ∧ Obs.called p tag cmd' (some (l', f'.id)) ∈ a₁ ∧
      a ++ [.settled p tag (.answer st d)] <+: x := by
  obtain ⟨hi, hf⟩ := holds_run pr srv e0 es ho
  obtain ⟨a1, a2, a3, cmd', l', f', now', r', h1, _⟩ := C93_answered pr srv e0 es ho hs
  refine ⟨_, a3, cmd', l', f', now', r', h1, by simp, ?_⟩
  obtain ⟨k1, _⟩ := exec_after hi hf ho (by rw [hs]; simp [hm]) hw hx
  -- the request is after the settlement and before the execution
  rw [hs] at hx
  have hx' : (a ++ [.settled p tag (.answer st d)]) ++ b = x ++ .executed l f now r :: y := by
    rw [← hx, List.append_assoc]; rfl
  rcases List.append_eq_append_iff.mp hx' with ⟨c, h2, h3⟩ | ⟨c, h2, h3⟩
  · exact ⟨c, h2.symm⟩
  · -- otherwise it was made twice
    exfalso
    have hsrt := hi.sorted l
    rw [hs, show a ++ Obs.settled p tag (.answer st d) :: b = (a ++ [.settled p tag (.answer st d)]) ++ b by rw [List.append_assoc]; rfl,
      sentOn_append, List.pairwise_append] at hsrt
    obtain ⟨op, body, _, _, hfr⟩ := wrote_frame ho (by rw [hs]; simp [hm]) hw
    have m1 : (⟨1, op, f.id, body⟩ : Frame) ∈ sentOn pr l b := List.mem_filterMap.mpr ⟨o, hm, hfr⟩
    have m2 : (⟨1, op, f.id, body⟩ : Frame) ∈ sentOn pr l (a ++ [.settled p tag (.answer st d)]) := by
      refine List.mem_filterMap.mpr ⟨o, ?_, hfr⟩
      rw [h2]; exact List.mem_append.mpr (.inl k1)
    exact absurd (hsrt.2.2 _ m2 _ m1) (Nat.lt_irrefl _)

/-- **C93.** No promise is settled twice: at most one settlement for each request. -/
theorem C93_settled (pr : Printer) (srv : Server E I) (e0 : E) (es : List (Ev I)) (p tag : Nat) :
    timesSettled p tag ((World.init e0).run pr srv es).2 ≤ timesCalled p tag ((World.init e0).run pr srv es).2 := by
  have := settled_run pr srv e0 es p tag
  omega

end Verif.Rpc
