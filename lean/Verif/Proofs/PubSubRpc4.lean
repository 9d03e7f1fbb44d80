import Verif.Proofs.PubSubRpc3

/-!
# Lemmas about publish/subscribe behind the network: whole runs
-/

namespace Verif.Rpc

open Verif Verif.Wire Verif.Sdk

variable {E I : Type}

section
variable {pr : Printer} {srv : Server E I} {env : HubEnv} {part : E → Hub} {bg : I → Option PubSub.Op} {desk : Desk I} {e0 : E}

/-- The broker is told of a connection. -/
theorem Ready.connect {w : World E} {tr : List (Obs I)} {arr : List (Nat × Bytes)} {sent : List (Nat × PubSub.Msg)} {n : Nat}
    (h : Ready pr srv env bg e0 w tr arr sent n) (x : I) (hx : bg x = some (.connect n))
    (ho : Ordinary pr srv (tr ++ (w.step pr srv (.tick x)).2)) :
    Ready pr srv env bg e0 (w.step pr srv (.tick x)).1 (tr ++ (w.step pr srv (.tick x)).2) (arr ++ arriving w (.tick x)) sent (n + 1) := by
  have hA : acts (tr ++ (w.step pr srv (.tick x)).2) = acts tr ++ [.ticked x] := by simp [World.step, acts_snoc, actOf]
  have hp := step_pushed pr srv w (.tick x) (fun _ _ _ h => nomatch h)
  refine ⟨h.inv.step _ ho, h.facts.step h.inv _ ho.left, h.fed.step h.inv (.tick x) trivial, ?_, ?_, ?_, ?_, ?_, ?_⟩
  · rw [hA, hubOps_snoc, PubSub.connects_append, h.range]
    simp [hubOp, hx, PubSub.connects, List.range_succ]
  · intro l hl he
    rw [pushedOn_append, hp, List.append_nil]
    exact h.chan l hl he
  · intro l
    rw [pushedOn_append, hp, List.append_nil]; exact h.pre l
  · intro c m hm
    exact Nat.lt_succ_of_lt (h.only c m hm)
  · rw [hA]
    refine before_snoc h.range h.before (.inr ⟨_, rfl, ?_⟩)
    rintro l (⟨cmd, now, r, ha⟩ | ⟨y, ha, hy⟩)
    · cases ha
    · injection ha with ha
      subst ha
      rw [hx] at hy
      rcases hy with hy | hy <;> cases hy
  · intro l hl he b hb hbe
    rw [hA] at hb
    rcases List.mem_append.mp hb with hb | hb
    · exact h.alive l hl he b hb hbe
    · obtain ⟨y, ha, hy⟩ := hbe
      rw [List.mem_singleton.mp hb] at ha
      injection ha with ha
      subst ha
      rw [hx] at hy
      rcases hy with hy | hy <;> cases hy

/-- What the broker sends in an act goes to connections it was told of. -/
theorem hub_next (hp : PubPart srv env part bg desk) {db : List PubSub.Row} {t0 u0 : Nat} (hb : part e0 = { st := PubSub.boot db t0 u0 })
    {w w1 : World E} {tr tr1 : List (Obs I)} {n : Nat} (hf : Facts pr srv e0 w tr) (hf1 : Facts pr srv e0 w1 tr1)
    (hr : PubSub.connects (hubOps env bg 0 (acts tr)) = List.range n)
    (hA : acts tr1 = acts tr ∨ ∃ a, acts tr1 = acts tr ++ [a]) :
    ∃ ext, (part w1.engine).sent = (part w.engine).sent ++ ext ∧ ∀ c m, (c, m) ∈ ext → c < n := by
  have h0 : (part e0).steps = 0 := by rw [hb]
  have e1 := hub_state hp h0 tr
  have e2 := hub_state hp h0 tr1
  rw [← hf.engine] at e1
  rw [← hf1.engine] at e2
  rcases hA with hA | ⟨a, hA⟩
  · refine ⟨[], ?_, fun _ _ h => nomatch h⟩
    rw [e2, e1, hA, List.append_nil]
  · rw [hA, hubOps_snoc, hubRun_append, ← e1] at e2
    cases ho : hubOp env bg (hubOps env bg 0 (acts tr)).length a with
    | none =>
      rw [ho] at e2
      exact ⟨[], by rw [e2, List.append_nil]; rfl, fun _ _ h => nomatch h⟩
    | some op =>
      rw [ho] at e2
      refine ⟨(PubSub.step env.dflt (part w.engine).st op).2.sent, by rw [e2]; rfl, ?_⟩
      intro c m hm
      rw [e1, hubRun_st, hb] at hm
      have := sent_connected (by rw [hr]; exact List.nodup_range) hm
      rw [hr] at this
      exact List.mem_range.mp this

/-- The state between two events of a run. -/
def Hosted (pr : Printer) (srv : Server E I) (env : HubEnv) (bg : I → Option PubSub.Op) (part : E → Hub) (e0 : E) (w : World E)
    (tr : List (Obs I)) (arr : List (Nat × Bytes)) : Prop :=
  Ready pr srv env bg e0 w tr arr (part w.engine).sent w.made

theorem handOver_eq {old new : Hub} {ext : List (Nat × PubSub.Msg)} (h : new.sent = old.sent ++ ext) : handOver (I := I) old new = pushEvs ext := by
  unfold handOver
  rw [h, List.drop_left]; rfl

/-- After its first steps, an event goes on by handing over what was sent. -/
theorem Hosted.rest (hp : PubPart srv env part bg desk) {db : List PubSub.Row} {t0 u0 : Nat} (hb : part e0 = { st := PubSub.boot db t0 u0 })
    {w w1 : World E} {tr tr1 : List (Obs I)} {arr arr1 : List (Nat × Bytes)} (h : Hosted pr srv env bg part e0 w tr arr)
    (h1 : Ready pr srv env bg e0 w1 tr1 arr1 (part w.engine).sent w1.made) (hm : w.made ≤ w1.made)
    (hA : acts tr1 = acts tr ∨ ∃ a, acts tr1 = acts tr ++ [a])
    (ho : Ordinary pr srv (tr1 ++ (w1.run pr srv (handOver (part w.engine) (part w1.engine))).2)) :
    Hosted pr srv env bg part e0 (w1.run pr srv (handOver (part w.engine) (part w1.engine))).1
      (tr1 ++ (w1.run pr srv (handOver (part w.engine) (part w1.engine))).2)
      (arr1 ++ arrivals pr srv w1 (handOver (part w.engine) (part w1.engine))) := by
  obtain ⟨ext, he, hx⟩ := hub_next hp hb h.facts h1.facts h.range hA
  rw [handOver_eq he] at ho ⊢
  obtain ⟨h2, h3, h4⟩ := h1.hand ext (Nat.le_refl _) (fun c m hm' => Nat.lt_of_lt_of_le (hx c m hm') hm) ho
  show Ready pr srv env bg e0 _ _ _ _ _
  rw [h3, h4, he]
  exact h2

/-- The first steps of an event have been made. -/
def Begun (pr : Printer) (srv : Server E I) (env : HubEnv) (bg : I → Option PubSub.Op) (part : E → Hub) (e0 : E) (w : World E)
    (tr : List (Obs I)) (arr : List (Nat × Bytes)) (es : List (Ev I)) : Prop :=
  Ready pr srv env bg e0 (w.run pr srv es).1 (tr ++ (w.run pr srv es).2) (arr ++ arrivals pr srv w es) (part w.engine).sent
    (w.run pr srv es).1.made ∧
  w.made ≤ (w.run pr srv es).1.made ∧
  (acts (tr ++ (w.run pr srv es).2) = acts tr ∨ ∃ a, acts (tr ++ (w.run pr srv es).2) = acts tr ++ [a])

theorem Hosted.event (hp : PubPart srv env part bg desk) {db : List PubSub.Row} {t0 u0 : Nat} (hb : part e0 = { st := PubSub.boot db t0 u0 })
    {w : World E} {tr : List (Obs I)} {arr : List (Nat × Bytes)} (h : Hosted pr srv env bg part e0 w tr arr) (e : HEv I)
    (ho : Ordinary pr srv (tr ++ (w.run pr srv (e.steps pr srv desk bg part w)).2)) :
    Hosted pr srv env bg part e0 (w.run pr srv (e.steps pr srv desk bg part w)).1 (tr ++ (w.run pr srv (e.steps pr srv desk bg part w)).2)
      (arr ++ arrivals pr srv w (e.steps pr srv desk bg part w)) := by
  unfold HEv.steps at ho ⊢
  simp only [] at ho ⊢
  rw [world_run_append] at ho ⊢
  rw [arrivals_append]
  simp only [] at ho ⊢
  rw [← List.append_assoc] at ho ⊢
  rw [← List.append_assoc]
  have none : e.first desk bg w = [] → Begun pr srv env bg part e0 w tr arr (e.first desk bg w) := by
    intro hf
    rw [hf]
    unfold Begun
    simp only [World.run, arrivals, List.append_nil]
    exact ⟨h, Nat.le_refl _, .inl trivial⟩
  have one : ∀ e' : Ev I, e.first desk bg w = [e'] → (∀ l now b, e' ≠ .server l now (.pushed b)) → (∀ x c, e' = .tick x → bg x ≠ some (.connect c)) →
      (∀ x l, e' = .tick x → endsLink bg l (.ticked x) → l < w.made ∧ (w.links l).ended = true) →
      (∀ p, ¬ (e' = .lib p .opened ∧ (w.peers p).lib.socket = .connecting)) →
      Begun pr srv env bg part e0 w tr arr (e.first desk bg w) := by
    intro e' hf h1 h2 h4 h3
    have ho' := ho.left
    rw [hf] at ho' ⊢
    unfold Begun
    simp only [World.run, arrivals, List.append_nil] at ho' ⊢
    have hmade : (w.step pr srv e').1.made = w.made := by
      rcases (step_made pr srv w e').1 with hm | ⟨_, p, hpe⟩
      · exact hm
      · exact absurd hpe (h3 p)
    have hs := Ready.step h e' ho' h1 h2 h4
    rw [hmade]
    refine ⟨hs, Nat.le_refl _, ?_⟩
    rcases step_acts pr srv w tr e' with hA | ⟨l, cmd, now, r, hA, _⟩ | ⟨x, _, hA⟩
    · exact .inl hA
    · exact .inr ⟨_, hA⟩
    · exact .inr ⟨_, hA⟩
  suffices hfirst : Begun pr srv env bg part e0 w tr arr (e.first desk bg w) from
    h.rest hp hb hfirst.1 hfirst.2.1 hfirst.2.2 ho
  have hmine : ∀ e' : Ev I, (∀ p e'', e' ≠ .lib p e'') → e = .ev e' → Begun pr srv env bg part e0 w tr arr (e.first desk bg w) := by
    intro e' hl he
    cases hm : mine bg e' with
    | true =>
      exact none (by subst he; cases e' <;> first | exact absurd rfl (hl _ _) | simp [HEv.first, hm])
    | false =>
      refine one e' (by subst he; cases e' <;> first | exact absurd rfl (hl _ _) | simp [HEv.first, hm]) ?_ ?_ ?_ ?_
      · rintro l now b rfl; simp [mine] at hm
      · rintro x c rfl hx; simp [mine, hx] at hm
      · rintro x l rfl ⟨y, hy, hx⟩
        injection hy with hy
        subst hy
        rcases hx with hx | hx <;> simp [mine, hx] at hm
      · rintro p ⟨rfl, _⟩; exact hl _ _ rfl
  cases e with
  | fade l =>
    by_cases hc : l < w.made ∧ (w.links l).ended = true
    · refine one (.tick (desk.faded l)) (by simp [HEv.first, hc]) (fun _ _ _ h => nomatch h) ?_ ?_ (fun _ h => nomatch h.1)
      · intro x c hx
        injection hx with hx
        rw [← hx, hp.faded]; intro h; cases h
      · rintro x l' hx ⟨y, hy, he⟩
        injection hx with hx
        injection hy with hy
        rw [← hy, ← hx, hp.faded] at he
        rcases he with he | he
        all_goals
          cases he
          all_goals exact hc
    · exact none (by simp only [HEv.first, if_neg hc])
  | leave l =>
    by_cases hc : l < w.made ∧ (w.links l).ended = true
    · refine one (.tick (desk.left l)) (by simp [HEv.first, hc]) (fun _ _ _ h => nomatch h) ?_ ?_ (fun _ h => nomatch h.1)
      · intro x c hx
        injection hx with hx
        rw [← hx, hp.left]; intro h; cases h
      · rintro x l' hx ⟨y, hy, he⟩
        injection hx with hx
        injection hy with hy
        rw [← hy, ← hx, hp.left] at he
        rcases he with he | he
        all_goals
          cases he
          all_goals exact hc
    · exact none (by simp only [HEv.first, if_neg hc])
  | ev e =>
    cases e with
    | lib p e' =>
      by_cases hc : e' = .opened ∧ (w.peers p).lib.socket = .connecting
      · have hf : (HEv.ev (.lib p e')).first desk bg w = [.lib p e', .tick (desk.opened w.made)] := by simp only [HEv.first, if_pos hc]
        have ho' := ho.left
        rw [hf] at ho' ⊢
        unfold Begun
        simp only [World.run, arrivals, List.append_nil] at ho' ⊢
        rw [← List.append_assoc] at ho' ⊢
        rw [← List.append_assoc]
        have hs := Ready.step h (.lib p e') ho'.left (fun _ _ _ h => nomatch h) (fun _ _ h => nomatch h) (fun _ _ h => nomatch h)
        have hs2 := hs.connect (desk.opened w.made) (hp.opened _) ho'
        have hmade : (w.step pr srv (.lib p e')).1.made = w.made + 1 := by
          rw [hc.1]
          simp [World.step, outside, hc.2]
        have hmade2 : ((w.step pr srv (.lib p e')).1.step pr srv (.tick (desk.opened w.made))).1.made = w.made + 1 := by
          rw [← hmade]; rfl
        rw [hmade2]
        refine ⟨hs2, by omega, .inr ⟨.ticked (desk.opened w.made), ?_⟩⟩
        rcases step_acts pr srv w tr (.lib p e') with hA | ⟨l, cmd, now, r, hA, _, now', i, hx⟩ | ⟨x, hx, _⟩
        · rw [← hA]; exact acts_snoc _ (.ticked _)
        · cases hx
        · cases hx
      · refine one (.lib p e') (by simp only [HEv.first, if_neg hc]) (fun _ _ _ h => nomatch h) (fun _ _ h => nomatch h) (fun _ _ h => nomatch h) ?_
        rintro p' ⟨h1, h2⟩
        injection h1 with h1 h1'
        subst h1
        exact hc ⟨h1', h2⟩
    | _ => exact hmine _ (by intro _ _ h; cases h) rfl

/-- Every run. -/
theorem hosted (hp : PubPart srv env part bg desk) {db : List PubSub.Row} {t0 u0 : Nat} (hb : part e0 = { st := PubSub.boot db t0 u0 })
    (es : List (HEv I)) (ho : Ordinary pr srv ((World.init e0).run pr srv (expand pr srv desk bg part (World.init e0) es)).2) :
    Hosted pr srv env bg part e0 ((World.init e0).run pr srv (expand pr srv desk bg part (World.init e0) es)).1
      ((World.init e0).run pr srv (expand pr srv desk bg part (World.init e0) es)).2
      (arrivals pr srv (World.init e0) (expand pr srv desk bg part (World.init e0) es)) := by
  induction es using Sdk.snoc_ind with
  | h0 =>
    refine ⟨Inv.init pr e0, ⟨rfl, ?_⟩, Fed.init e0, rfl, ?_, ?_, ?_, ?_, ?_⟩
    · intro a o b h
      cases a <;> cases h
    · intro l hl; cases hl
    · intro l; exact List.nil_prefix
    · intro c m hm
      simp only [expand, World.run, World.init, hb] at hm
      cases hm
    · intro u a v l h
      cases u <;> cases h
    · intro l hl; cases hl
  | h1 es e ih =>
    rw [expand_snoc, world_run_append] at ho ⊢
    rw [arrivals_append]
    exact (ih ho.left).event hp hb e ho

end

end Verif.Rpc
