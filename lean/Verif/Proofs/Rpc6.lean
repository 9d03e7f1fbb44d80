import Verif.Proofs.Rpc5
import Verif.Proofs.Command

/-!
# Lemmas about clients, network and server together: what the trace shows
-/

namespace Verif.Rpc

open Verif Verif.Wire Verif.Sdk

variable {E I : Type}

/-! ### Replay -/

theorem replay_snoc (srv : Server E I) (past : List (Obs I)) (e : E) (a : List (Obs I)) (o : Obs I) :
    replay srv past e (a ++ [o]) = effect srv (past ++ a) o (replay srv past e a) := by
  induction a generalizing past e with
  | nil => simp [replay]
  | cons x a ih =>
    show replay srv (past ++ [x]) _ (a ++ [o]) = _
    rw [ih, List.append_assoc]; rfl

theorem state_snoc (srv : Server E I) (e : E) (a : List (Obs I)) (o : Obs I) :
    state srv e (a ++ [o]) = effect srv a o (state srv e a) := replay_snoc srv [] e a o

/-- An observation that is no execution and no background step. -/
def Obs.calm : Obs I → Bool
  | .executed .. => false
  | .ticked _ => false
  | _ => true

theorem state_calm (srv : Server E I) (e : E) (a : List (Obs I)) {new : List (Obs I)} (h : ∀ o ∈ new, o.calm = true) :
    state srv e (a ++ new) = state srv e a := by
  induction new using Sdk.snoc_ind with
  | h0 => rw [List.append_nil]
  | h1 new o ih =>
    rw [← List.append_assoc, state_snoc, ih (fun x hx => h x (List.mem_append.mpr (.inl hx)))]
    have := h o (by simp)
    cases o <;> first | rfl | cases this

/-! ### Every observation, with what came before it -/

def Hist (P : List (Obs I) → Obs I → Prop) (tr : List (Obs I)) : Prop := ∀ a o b, tr = a ++ o :: b → P a o

theorem Hist.append {P : List (Obs I) → Obs I → Prop} {tr new : List (Obs I)} (h : Hist P tr)
    (hn : ∀ a o b, new = a ++ o :: b → P (tr ++ a) o) : Hist P (tr ++ new) := by
  intro a o b hs
  rcases List.append_eq_append_iff.mp hs with ⟨c, h1, h2⟩ | ⟨c, h1, h2⟩
  · rw [h1]; exact hn c o b h2
  · cases c with
    | nil =>
      rw [List.nil_append] at h2
      rw [List.append_nil] at h1
      have := hn [] o b h2.symm
      rwa [List.append_nil, h1] at this
    | cons x c =>
      injection h2 with h3 h4
      subst h3
      exact h a o c h1

/-- What the trace shows of an execution and of an answer. -/
def Shown (pr : Printer) (srv : Server E I) (e0 : E) (a : List (Obs I)) : Obs I → Prop
  | .executed l f now r => ∃ cmd, cmdAt l f.id a = some cmd ∧ tsBody pr cmd = some (f.op, f.payload) ∧
      r = (srv.exec l now cmd (state srv e0 a)).2
  | .settled p tag (.answer st d) => ∃ cmd l f now r, Obs.called p tag cmd (some (l, f.id)) ∈ a ∧
      Obs.executed l f now (some r) ∈ a ∧ (Outbound.response f.id r).frame = ⟨2, st, f.id, d⟩
  | _ => True

/-! ### One request per id -/

theorem wrote_frame {pr : Printer} {srv : Server E I} {tr : List (Obs I)} (ho : Ordinary pr srv tr) {o : Obs I} (hm : o ∈ tr) {l id : Nat} {cmd : Cmd}
    (h : o.wrote l id = some cmd) : ∃ op body, tsBody pr cmd = some (op, body) ∧ parse srv.sd op body = .ok cmd ∧
      frameOf pr l o = some ⟨1, op, id, body⟩ := by
  have key : o.cmd? = some cmd → (frameOf pr l o = reqFrame pr cmd id) → ∃ op body, tsBody pr cmd = some (op, body) ∧ parse srv.sd op body = .ok cmd ∧
      frameOf pr l o = some ⟨1, op, id, body⟩ := by
    intro h1 h2
    obtain ⟨hf, hj, _⟩ := ho.cmds o hm cmd h1
    obtain ⟨op, body, h3, h4⟩ := parse_tsBody (sd := srv.sd) (pr := pr) hf hj
    exact ⟨op, body, h3, h4, by rw [h2, reqFrame, h3]; rfl⟩
  cases o with
  | called p tag c s =>
    simp only [Obs.wrote] at h
    split at h
    · next hs =>
      injection h with h; subst h hs
      exact key rfl (by simp [frameOf])
    · cases h
  | fired p c s =>
    simp only [Obs.wrote] at h
    split at h
    · next hs =>
      injection h with h; subst h hs
      exact key rfl (by simp [frameOf])
    · cases h
  | executed => cases h
  | pushed => cases h
  | ticked => cases h
  | settled => cases h

theorem frame_wrote {pr : Printer} {o : Obs I} {l : Nat} {f : Frame} (h : frameOf pr l o = some f) :
    ∃ cmd, o.wrote l f.id = some cmd ∧ tsBody pr cmd = some (f.op, f.payload) := by
  have key : ∀ (cmd : Cmd) (id : Nat), reqFrame pr cmd id = some f → f.id = id ∧ tsBody pr cmd = some (f.op, f.payload) := by
    intro cmd id h
    unfold reqFrame at h
    cases hb : tsBody pr cmd with
    | none => rw [hb] at h; cases h
    | some b => rw [hb] at h; injection h with h; subst h; exact ⟨rfl, rfl⟩
  cases o with
  | called p tag c s =>
    cases s with
    | none => cases h
    | some s =>
      obtain ⟨l', id⟩ := s
      simp only [frameOf] at h
      split at h
      · next hl =>
        obtain ⟨h1, h2⟩ := key c id h
        exact ⟨c, by simp [Obs.wrote, hl, h1], h2⟩
      · cases h
  | fired p c s =>
    cases s with
    | none => cases h
    | some s =>
      obtain ⟨l', id⟩ := s
      simp only [frameOf] at h
      split at h
      · next hl =>
        obtain ⟨h1, h2⟩ := key c id h
        exact ⟨c, by simp [Obs.wrote, hl, h1], h2⟩
      · cases h
  | executed => cases h
  | pushed => cases h
  | ticked => cases h
  | settled => cases h

theorem pairwise_or {α : Type} {R : α → α → Prop} {l : List α} (h : l.Pairwise R) {x y : α} (hx : x ∈ l) (hy : y ∈ l) :
    x = y ∨ R x y ∨ R y x := by
  induction l with
  | nil => cases hx
  | cons a l ih =>
    rw [List.pairwise_cons] at h
    rcases List.mem_cons.mp hx with hx | hx <;> rcases List.mem_cons.mp hy with hy | hy
    · exact .inl (hx.trans hy.symm)
    · rw [hx]; exact .inr (.inl (h.1 _ hy))
    · rw [hy]; exact .inr (.inr (h.1 _ hx))
    · exact ih h.2 hx hy

/-- Two requests written on one connection under one id are one request. -/
theorem Inv.unique {pr : Printer} {srv : Server E I} {w : World E} {tr : List (Obs I)} (h : Inv pr w tr) (ho : Ordinary pr srv tr)
    {o o' : Obs I} (hm : o ∈ tr) (hm' : o' ∈ tr) {l id : Nat} {c c' : Cmd} (hw : o.wrote l id = some c) (hw' : o'.wrote l id = some c') :
    o = o' := by
  obtain ⟨op, body, _, _, hf⟩ := wrote_frame ho hm hw
  obtain ⟨op', body', _, _, hf'⟩ := wrote_frame ho hm' hw'
  have hs := h.sorted l
  unfold sentOn at hs
  rw [List.pairwise_filterMap] at hs
  rcases pairwise_or hs hm hm' with h1 | h1 | h1
  · exact h1
  · exact absurd (h1 _ hf _ hf') (Nat.lt_irrefl _)
  · exact absurd (h1 _ hf' _ hf) (Nat.lt_irrefl _)

theorem Inv.cmdAt {pr : Printer} {srv : Server E I} {w : World E} {tr : List (Obs I)} (h : Inv pr w tr) (ho : Ordinary pr srv tr)
    {o : Obs I} (hm : o ∈ tr) {l id : Nat} {c : Cmd} (hw : o.wrote l id = some c) : cmdAt l id tr = some c := by
  unfold Rpc.cmdAt
  cases hc : tr.findSome? (Obs.wrote l id) with
  | none => rw [List.findSome?_eq_none_iff] at hc; rw [hc o hm] at hw; cases hw
  | some c' =>
    obtain ⟨a, o', b, hs, h1, _⟩ := List.findSome?_eq_some_iff.mp hc
    have := h.unique ho (by rw [hs]; simp) hm h1 hw
    subst this
    rw [hw] at h1; exact h1.symm

theorem cmdAt_mem {l id : Nat} {tr : List (Obs I)} {c : Cmd} (h : cmdAt l id tr = some c) : ∃ o ∈ tr, o.wrote l id = some c := by
  obtain ⟨a, o', b, hs, h1, _⟩ := List.findSome?_eq_some_iff.mp h
  exact ⟨o', by rw [hs]; simp, h1⟩

theorem response_frame (id : Nat) (r : Response) : (Outbound.response id r).frame.ftype = 2 ∧ (Outbound.response id r).frame.id = id := by
  cases r <;> exact ⟨rfl, rfl⟩

/-- Handling the frame of a command is carrying out the command. -/
theorem handle_frame (srv : Server E I) {pr : Printer} {l now : Nat} {f : Frame} {cmd : Cmd} {e : E} (ht : f.ftype = 1)
    (hp : parse srv.sd f.op f.payload = .ok cmd) : srv.handle l now f e = srv.exec l now cmd e := by
  unfold Server.handle handleFrame
  rw [if_pos (show f.ftype = typeRequest from ht)]
  unfold dispatch
  have hr : route f.op ≠ .echo ∧ route f.op ≠ .unknown := by
    unfold parse at hp
    split at hp <;> first | cases hp | simp_all
  split
  · next h => exact absurd h hr.1
  · next h => exact absurd h hr.2
  · rw [hp]

/-! ### Steps -/

structure Facts (pr : Printer) (srv : Server E I) (e0 : E) (w : World E) (tr : List (Obs I)) : Prop where
  engine : w.engine = state srv e0 tr
  shown : Hist (Shown pr srv e0) tr

theorem settle_calm (p : Nat) (outs : List (Nat × Outcome)) : ∀ o ∈ (settle p outs : List (Obs I)), o.calm = true := by
  intro o ho
  obtain ⟨x, _, rfl⟩ := List.mem_map.mp ho
  rfl

/-- A step that shows neither execution, nor background step, nor answer. -/
theorem Facts.calm {pr : Printer} {srv : Server E I} {e0 : E} {w w' : World E} {tr new : List (Obs I)} (h : Facts pr srv e0 w tr)
    (he : w'.engine = w.engine) (hn : ∀ o ∈ new, o.calm = true ∧ ∀ p t st d, o ≠ .settled p t (.answer st d)) : Facts pr srv e0 w' (tr ++ new) := by
  refine ⟨by rw [he, h.engine, state_calm srv e0 tr (fun o ho => (hn o ho).1)], h.shown.append ?_⟩
  intro a o b hs
  obtain ⟨h1, h2⟩ := hn o (by rw [hs]; simp)
  cases o with
  | executed => cases h1
  | settled p t o =>
    cases o with
    | answer st d => exact absurd rfl (h2 p t st d)
    | _ => trivial
  | _ => trivial

theorem settle_plain {p : Nat} {outs : List (Nat × Outcome)} (h : ∀ t st d, (t, Outcome.answer st d) ∉ outs) :
    ∀ o ∈ (settle p outs : List (Obs I)), o.calm = true ∧ ∀ p t st d, o ≠ .settled p t (.answer st d) := by
  intro o ho
  refine ⟨settle_calm p outs o ho, ?_⟩
  intro q t st d he
  obtain ⟨x, hx, rfl⟩ := List.mem_map.mp ho
  injection he with h1 h2 h3
  obtain ⟨t', o'⟩ := x
  simp only at h2 h3
  subst h3
  exact h t' st d hx

theorem Facts.step {pr : Printer} {srv : Server E I} {e0 : E} {w : World E} {tr : List (Obs I)} (hi : Inv pr w tr) (h : Facts pr srv e0 w tr)
    (e : Ev I) (ho : Ordinary pr srv tr) : Facts pr srv e0 (w.step pr srv e).1 (tr ++ (w.step pr srv e).2) := by
  cases e with
  | lib p e =>
    simp only [World.step]
    cases hout : outside e with
    | false => simpa using ⟨h.engine, h.shown⟩
    | true =>
      simp only [Bool.not_true, Bool.false_eq_true, if_false]
      have := settle_plain (I := I) (p := p) (outs := ((w.peers p).lib.step e).2) (fun t st d => outside_answer hout)
      split <;> exact h.calm rfl this
  | call p tag T now cmd =>
    have hs : ∀ t st d, (t, Outcome.answer st d) ∉ ((w.peers p).lib.step (.send tag T now)).2 := by
      intro t st d hm
      obtain ⟨id, h1, _⟩ := answered_step hm
      cases h1
    have hp := settle_plain (I := I) (p := p) hs
    have hc : ∀ s, ∀ o ∈ (Obs.called p tag cmd s :: settle p ((w.peers p).lib.step (.send tag T now)).2 : List (Obs I)),
        o.calm = true ∧ ∀ p t st d, o ≠ .settled p t (.answer st d) := by
      intro s o hm
      rcases List.mem_cons.mp hm with rfl | hm
      · exact ⟨rfl, by intros; simp⟩
      · exact hp o hm
    simp only [World.step]
    split
    · refine h.calm rfl ?_
      intro o hm
      simp only [List.mem_cons, List.not_mem_nil, or_false] at hm
      rcases hm with rfl | rfl
      · exact ⟨rfl, by intros; simp⟩
      · exact ⟨rfl, by intros; simp⟩
    · split
      · exact h.calm rfl (hc _)
      · exact h.calm rfl (hc _)
  | fire p cmd =>
    have hc : ∀ s, ∀ o ∈ ([Obs.fired p cmd s] : List (Obs I)), o.calm = true ∧ ∀ p t st d, o ≠ .settled p t (.answer st d) := by
      intro s o hm
      rw [List.mem_singleton.mp hm]
      exact ⟨rfl, by intros; simp⟩
    simp only [World.step]
    split
    · exact h.calm rfl (hc _)
    · split
      · exact h.calm rfl (hc _)
      · exact h.calm rfl (hc _)
  | toServer l n =>
    simp only [World.step]
    split <;> exact h.calm rfl (fun o hm => nomatch hm)
  | drop l => exact h.calm rfl (fun o hm => nomatch hm)
  | tick x =>
    refine ⟨?_, h.shown.append ?_⟩
    · show srv.tick x w.engine = state srv e0 (tr ++ [.ticked x])
      rw [state_snoc, h.engine]; rfl
    · intro a o b hs
      have : o ∈ ([.ticked x] : List (Obs I)) := by
        show o ∈ (w.step pr srv (.tick x)).2
        rw [hs]; simp
      rw [List.mem_singleton.mp this]; trivial
  | server l now e =>
    have none : ∀ w' : World E, w'.engine = w.engine → Facts pr srv e0 w' (tr ++ []) := fun w' hw => h.calm hw (fun o hm => nomatch hm)
    cases e with
    | read f => exact none _ rfl
    | complete i =>
      simp only [World.step]
      cases hf : (w.links l).conn.running[i]? with
      | none =>
        refine none _ ?_
        simp [Conn.step, hf]
      | some f =>
        have hsent := hi.running_sent hf
        obtain ⟨o, hom, hof⟩ := List.mem_filterMap.mp hsent
        obtain ⟨cmd, hw, hb⟩ := frame_wrote hof
        obtain ⟨op, body, h1, h2, h3⟩ := wrote_frame ho hom hw
        rw [hb] at h1
        injection h1 with h1
        injection h1 with h4 h5
        rw [← h4, ← h5] at h2
        have hat := hi.cmdAt ho hom hw
        have hh := handle_frame srv (pr := pr) (l := l) (now := now) (e := w.engine) (hi.ok l f hsent).1 h2
        refine ⟨?_, h.shown.append ?_⟩
        · show (Conn.step (srv.handle l now) { (w.links l).conn with engine := w.engine } (.complete i)).engine = state srv e0 (tr ++ [_])
          rw [state_snoc, step_some (show ({ (w.links l).conn with engine := w.engine } : Conn E).running[i]? = some f from hf), ← h.engine]
          simp only [effect, hat]
          rw [hh]
        · intro a o' b hs
          cases a with
          | nil =>
            injection hs with h6 h7
            subst h6
            rw [List.append_nil]
            exact ⟨cmd, hat, hb, by rw [hh, h.engine]⟩
          | cons x a => 
            injection hs with h6 h7
            cases a <;> cases h7
    | spawn => simp only [World.step]; split <;> exact none _ rfl
    | pushed p =>
      simp only [World.step]
      split
      · exact none _ rfl
      · refine h.calm rfl ?_
        intro o hm
        rw [List.mem_singleton.mp hm]
        exact ⟨rfl, by intros; simp⟩
    | bridge => simp only [World.step]; split <;> exact none _ rfl
    | post i => simp only [World.step]; split <;> exact none _ rfl
    | write => simp only [World.step]; split <;> exact none _ rfl
  | toClient l n =>
    simp only [World.step]
    split
    · next hl =>
      have hP := hi.peers (w.links l).peer
      obtain ⟨_, _, seen, rest, h1, h2⟩ := hP.client l hl
      rw [← List.take_append_drop n (w.links l).toClient, ← List.append_assoc] at h2
      have hfit : ∀ o ∈ rest, o.Fits := fun o ho => (hi.links l).fits.1 o
        (mem_outs.mpr (.inl (by rw [h1]; exact List.mem_append.mpr (.inr ho))))
      obtain ⟨s2, r2, b1, b2, b3⟩ := tsDrain_sent _ _ rest hfit h2
      refine ⟨by rw [state_calm srv e0 tr (settle_calm _ _)]; exact h.engine, h.shown.append ?_⟩
      intro a o b hs
      have hm : o ∈ (settle (w.links l).peer ((w.peers (w.links l).peer).lib.outcomes (responses (tsDrain ((w.peers (w.links l).peer).buf ++ (w.links l).toClient.take n)).1)) : List (Obs I)) := by
        simp only at hs
        rw [hs]; simp
      obtain ⟨⟨t, out⟩, hx, rfl⟩ := List.mem_map.mp hm
      cases out with
      | answer st d =>
        obtain ⟨f, hf, c1, c2, c3, q, c4, c5⟩ := answered_chunk hx
        rw [b2] at hf
        obtain ⟨out, hout, rfl⟩ := List.mem_map.mp hf
        cases out with
        | push p => cases c1
        | response id r =>
          have hw : Outbound.response id r ∈ (w.links l).conn.written := by
            rw [h1, b1]; simp [hout]
          obtain ⟨g, now, d1, d2⟩ := (hi.links l).outs id r (mem_outs.mpr (.inl hw))
          obtain ⟨l', k, cmd, e1, e2, e3⟩ := hP.pend _ q c4
          rw [hl] at e1
          injection e1 with e1
          have e4 : id = k := by
            have : ((id : Nat) : Int) = (k : Int) := by rw [← response_frame id r |>.2]; exact e2
            omega
          subst e1 e4
          rw [c5] at e3
          refine ⟨cmd, l, g, now, r, ?_, List.mem_append.mpr (.inl d1), ?_⟩
          · rw [d2]; exact List.mem_append.mpr (.inl e3)
          · rw [d2, ← c2, ← c3, ← c1]
            cases r <;> rfl
      | _ => trivial
    · exact h.calm rfl (fun o hm => nomatch hm)

/-! ### Runs -/

theorem run_snoc (pr : Printer) (srv : Server E I) (w : World E) (es : List (Ev I)) (e : Ev I) :
    w.run pr srv (es ++ [e]) = (((w.run pr srv es).1.step pr srv e).1, (w.run pr srv es).2 ++ ((w.run pr srv es).1.step pr srv e).2) := by
  induction es generalizing w with
  | nil => simp [World.run]
  | cons x es ih =>
    simp only [List.cons_append, World.run, ih, List.append_assoc]

theorem holds_run (pr : Printer) (srv : Server E I) (e0 : E) (es : List (Ev I)) (ho : Ordinary pr srv ((World.init e0).run pr srv es).2) :
    Inv pr ((World.init e0).run pr srv es).1 ((World.init e0).run pr srv es).2 ∧
    Facts pr srv e0 ((World.init e0).run pr srv es).1 ((World.init e0).run pr srv es).2 := by
  induction es using Sdk.snoc_ind with
  | h0 =>
    refine ⟨Inv.init pr e0, rfl, ?_⟩
    intro a o b h
    cases a <;> cases h
  | h1 es e ih =>
    rw [run_snoc] at ho ⊢
    obtain ⟨h1, h2⟩ := ih ho.left
    exact ⟨h1.step e ho, h2.step h1 e ho.left⟩

end Verif.Rpc
