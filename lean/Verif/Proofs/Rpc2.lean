import Verif.Proofs.Rpc

/-!
# Lemmas about clients, network and server together: the server's steps
-/

namespace Verif.Rpc

open Verif Verif.Wire Verif.Sdk

variable {E I : Type}

theorem eraseIdx_perm' {α : Type} {l : List α} {i : Nat} {x : α} (h : l[i]? = some x) : (x :: l.eraseIdx i).Perm l := by
  induction l generalizing i with
  | nil => simp at h
  | cons a l ih =>
    cases i with
    | zero => simp at h; subst h; simp
    | succ i =>
      simp only [List.getElem?_cons_succ] at h
      rw [List.eraseIdx_cons_succ]
      exact (List.Perm.swap _ _ _).trans ((ih h).cons a)

/-- A step of the connection's tasks that carries out no request. -/
theorem LinkInv.quiet {pr : Printer} {l : Nat} {k : Link E} {tr : List (Obs I)} (h : LinkInv pr l k tr)
    (handle : Frame → E → E × Option Response) (eng : E) {e : CEvent} (h1 : ∀ f, e ≠ .read f) (h2 : ∀ i, e ≠ .complete i)
    {new : List (Obs I)} (hs : sentOn pr l new = []) (he : execOn l new = [])
    (hp : ∀ packet, e = .pushed packet → packet.length < 2 ^ 32) (tc : Bytes) :
    LinkInv pr l { k with conn := Conn.step handle { k.conn with engine := eng } e, toClient := tc } (tr ++ new) := by
  have hm := h.mono hs he
  cases e with
  | read f => exact absurd rfl (h1 f)
  | complete i => exact absurd rfl (h2 i)
  | spawn =>
    simp only [Conn.step]
    split
    · exact ⟨hm.wire, hm.tasks, hm.outs, hm.fits⟩
    · next f rest hi =>
      refine ⟨hm.wire, ?_, hm.outs, hm.fits⟩
      have := hm.tasks
      rw [show k.conn.inbound = f :: rest from hi] at this
      simp only [List.append_assoc, List.singleton_append] at this ⊢
      exact this
  | pushed packet =>
    refine ⟨hm.wire, hm.tasks, hm.outs, hm.fits.1, ?_⟩
    intro p hp'
    simp only [Conn.step, List.mem_append, List.mem_singleton] at hp'
    rcases hp' with hp' | rfl
    · exact hm.fits.2 p hp'
    · exact hp _ rfl
  | bridge =>
    simp only [Conn.step]
    split
    · exact ⟨hm.wire, hm.tasks, hm.outs, hm.fits⟩
    · next p rest hi =>
      have hi' : k.conn.pushes = p :: rest := hi
      refine ⟨hm.wire, hm.tasks, ?_, ?_, ?_⟩
      · intro id r hx
        refine hm.outs id r ?_
        simp only [Conn.outs, List.mem_append, List.mem_singleton, reduceCtorEq, or_false] at hx ⊢
        exact hx
      · intro o ho
        by_cases hop : o = .push 0 p
        · subst hop
          refine ⟨by show 0 < 2 ^ 32; omega, hm.fits.2 p ?_⟩
          rw [hi']; exact List.mem_cons_self ..
        · refine hm.fits.1 o ?_
          simp only [Conn.outs, List.mem_append, List.mem_singleton, hop, or_false] at ho ⊢
          exact ho
      · intro q hq
        exact hm.fits.2 q (by rw [hi']; exact List.mem_cons_of_mem _ hq)
  | write =>
    have hx : (Conn.step handle { k.conn with engine := eng } .write).outs = k.conn.outs := outs_write _
    refine ⟨hm.wire, ?_, fun id r hm' => hm.outs id r (by rw [← hx]; exact hm'), fun o' ho => hm.fits.1 o' (by rw [← hx]; exact ho), ?_⟩
    · simp only [Conn.step]; split <;> exact hm.tasks
    · simp only [Conn.step]; split <;> exact hm.fits.2
  | post i =>
    have hx : (Conn.step handle { k.conn with engine := eng } (.post i)).outs.Perm k.conn.outs := outs_post _ i
    refine ⟨hm.wire, ?_, fun id r hm' => hm.outs id r (hx.mem_iff.mp hm'), fun o' ho => hm.fits.1 o' (hx.mem_iff.mp ho), ?_⟩
    · simp only [Conn.step]; split <;> exact hm.tasks
    · simp only [Conn.step]; split <;> exact hm.fits.2

/-- A task completes. -/
theorem LinkInv.complete {pr : Printer} {l : Nat} {k : Link E} {tr : List (Obs I)} (h : LinkInv pr l k tr)
    (handle : Frame → E → E × Option Response) (eng : E) {i now : Nat} {f : Frame} (hf : k.conn.running[i]? = some f)
    (hid : f.id < 2 ^ 32)
    (hr : ∀ r, (handle f eng).2 = some r → (Outbound.response f.id r).frame.payload.length < 2 ^ 32) :
    LinkInv pr l { k with conn := Conn.step handle { k.conn with engine := eng } (.complete i) }
      (tr ++ [.executed l f now (handle f eng).2]) := by
  have hf' : ({ k.conn with engine := eng } : Conn E).running[i]? = some f := hf
  have hx0 : (Conn.step handle { k.conn with engine := eng } (.complete i)).outs = k.conn.outs ++ (answerOf f (handle f eng).2).map sends := outs_complete hf'
  have hs : sentOn pr l ([.executed l f now (handle f eng).2] : List (Obs I)) = [] := rfl
  have he : execOn l ([.executed l f now (handle f eng).2] : List (Obs I)) = [f] := by simp [execOn, execOf]
  refine ⟨?_, ?_, ?_, ?_, by rw [step_some hf']; exact h.fits.2⟩
  · rw [sentOn_append, hs, List.append_nil]; exact h.wire
  · rw [execOn_append, he, step_some hf']
    refine List.Perm.trans ?_ h.tasks
    simp only [List.append_assoc, List.singleton_append]
    refine List.Perm.append_left _ ?_
    exact (eraseIdx_perm' hf).append_right _
  · intro id r hx
    rw [hx0] at hx
    rcases List.mem_append.mp hx with hx | hx
    · obtain ⟨f', now', h1, h2⟩ := h.outs id r hx
      exact ⟨f', now', List.mem_append.mpr (.inl h1), h2⟩
    · cases hh : (handle f eng).2 with
      | none => rw [hh] at hx; cases hx
      | some r' =>
        rw [hh] at hx
        simp only [answerOf, List.map_cons, List.map_nil, sends, List.mem_singleton, Outbound.response.injEq] at hx
        obtain ⟨rfl, rfl⟩ := hx
        exact ⟨f, now, List.mem_append.mpr (.inr (List.mem_singleton.mpr rfl)), rfl⟩
  · intro o ho
    rw [hx0] at ho
    rcases List.mem_append.mp ho with ho | ho
    · exact h.fits.1 o ho
    · cases hh : (handle f eng).2 with
      | none => rw [hh] at ho; cases ho
      | some r' =>
        rw [hh] at ho
        simp only [answerOf, List.map_cons, List.map_nil, sends, List.mem_singleton] at ho
        subst ho
        refine ⟨?_, hr r' hh⟩
        cases r' <;> exact hid

/-- Of what has been written, nothing is taken back. -/
theorem written_prefix (handle : Frame → E → E × Option Response) (c : Conn E) (e : CEvent) :
    (c.step handle e).written = c.written ++ (c.step handle e).written.drop c.written.length := by
  cases e <;> simp only [Conn.step] <;> (try split) <;> simp

end Verif.Rpc
