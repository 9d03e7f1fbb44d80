import Verif.Proofs.PubSubRpc2

/-!
# Lemmas about publish/subscribe behind the network: what is sent is what is handed to the bridges
-/

namespace Verif.Rpc

open Verif Verif.Wire Verif.Sdk

variable {E I : Type}

/-- What of the messages sent goes to connection `l`. -/
def sentTo (l : Nat) (sent : List (Nat × PubSub.Msg)) : List PubSub.Msg := sent.filterMap (fun e => if e.1 = l then some e.2 else none)

def packetOf (m : PubSub.Msg) : Bytes := wirePush m.topic m.payload

theorem sentTo_append (l : Nat) (a b : List (Nat × PubSub.Msg)) : sentTo l (a ++ b) = sentTo l a ++ sentTo l b := List.filterMap_append

theorem sentTo_nil {l : Nat} {sent : List (Nat × PubSub.Msg)} (h : ∀ m, (l, m) ∉ sent) : sentTo l sent = [] := by
  unfold sentTo
  rw [List.filterMap_eq_nil_iff]
  rintro ⟨c, m⟩ hm
  simp only [ite_eq_right_iff, reduceCtorEq]
  rintro rfl
  exact h m hm

/-! ### Runs -/

theorem world_run_append (pr : Printer) (srv : Server E I) (w : World E) (a b : List (Ev I)) :
    w.run pr srv (a ++ b) = (((w.run pr srv a).1.run pr srv b).1, (w.run pr srv a).2 ++ ((w.run pr srv a).1.run pr srv b).2) := by
  induction a generalizing w with
  | nil => rfl
  | cons e a ih => simp only [List.cons_append, World.run, ih, List.append_assoc]

theorem arrivals_append (pr : Printer) (srv : Server E I) (w : World E) (a b : List (Ev I)) :
    arrivals pr srv w (a ++ b) = arrivals pr srv w a ++ arrivals pr srv (w.run pr srv a).1 b := by
  induction a generalizing w with
  | nil => rfl
  | cons e a ih => simp only [List.cons_append, World.run, arrivals, ih, List.append_assoc]

theorem expand_snoc (pr : Printer) (srv : Server E I) (desk : Desk I) (bg : I → Option PubSub.Op) (part : E → Hub) (w : World E)
    (es : List (HEv I)) (e : HEv I) :
    expand pr srv desk bg part w (es ++ [e]) =
      expand pr srv desk bg part w es ++ e.steps pr srv desk bg part (w.run pr srv (expand pr srv desk bg part w es)).1 := by
  induction es generalizing w with
  | nil => simp [expand, World.run]
  | cons x es ih => simp only [List.cons_append, expand, ih, world_run_append, List.append_assoc]

/-! ### Acts of a step -/

theorem acts_calm (a : List (Obs I)) {new : List (Obs I)} (h : ∀ o ∈ new, o.calm = true) : acts (a ++ new) = acts a := by
  induction new using Sdk.snoc_ind with
  | h0 => rw [List.append_nil]
  | h1 new o ih =>
    rw [← List.append_assoc, acts_snoc, ih (fun x hx => h x (List.mem_append.mpr (.inl hx)))]
    have := h o (by simp)
    cases o <;> first | exact List.append_nil _ | cases this

theorem called_calm (p tag : Nat) (cmd : Cmd) (s : Option (Nat × Nat)) (outs : List (Nat × Outcome)) :
    ∀ o ∈ (Obs.called p tag cmd s :: settle p outs : List (Obs I)), o.calm = true := by
  intro o ho
  rcases List.mem_cons.mp ho with rfl | ho
  · rfl
  · exact settle_calm _ _ o ho

theorem step_acts (pr : Printer) (srv : Server E I) (w : World E) (tr : List (Obs I)) (e : Ev I) :
    acts (tr ++ (w.step pr srv e).2) = acts tr ∨
    (∃ l cmd now r, acts (tr ++ (w.step pr srv e).2) = acts tr ++ [.did l cmd now r] ∧ execOn l (w.step pr srv e).2 ≠ [] ∧
      ∃ now' i, e = .server l now' (.complete i)) ∨
    ∃ x, e = .tick x ∧ acts (tr ++ (w.step pr srv e).2) = acts tr ++ [.ticked x] := by
  cases e with
  | lib p e =>
    left
    apply acts_calm
    simp only [World.step]
    split
    · intro o ho; cases ho
    · split <;> exact settle_calm _ _
  | call p tag T now cmd =>
    left
    apply acts_calm
    simp only [World.step]
    split
    · intro o ho
      simp only [List.mem_cons, List.not_mem_nil, or_false] at ho
      rcases ho with rfl | rfl <;> rfl
    · split <;> exact called_calm _ _ _ _ _
  | fire p cmd =>
    left
    apply acts_calm
    simp only [World.step]
    split
    · intro o ho; rw [List.mem_singleton.mp ho]; rfl
    · split <;> (intro o ho; rw [List.mem_singleton.mp ho]; rfl)
  | toServer l n =>
    left
    apply acts_calm
    simp only [World.step]
    split <;> (intro o ho; cases ho)
  | server l now e =>
    cases e with
    | complete i =>
      cases hf : (w.links l).conn.running[i]? with
      | none => left; simp [World.step, hf]
      | some f =>
        simp only [World.step, hf]
        rw [acts_snoc]
        simp only [actOf]
        cases hc : cmdAt l f.id tr with
        | none => left; simp
        | some cmd => exact .inr (.inl ⟨l, cmd, now, _, rfl, by simp [execOn, execOf], now, i, rfl⟩)
    | read f => left; simp [World.step]
    | pushed b =>
      left
      apply acts_calm
      simp only [World.step]
      split
      · intro o ho; cases ho
      · intro o ho; rw [List.mem_singleton.mp ho]; rfl
    | spawn | post _ | bridge | write =>
      left
      apply acts_calm
      simp only [World.step]
      split <;> (intro o ho; cases ho)
  | drop l => left; simp [World.step]
  | toClient l n =>
    left
    apply acts_calm
    simp only [World.step]
    split
    · exact settle_calm _ _
    · intro o ho; cases ho
  | tick x => exact .inr (.inr ⟨x, rfl, by simp [World.step, acts_snoc, actOf]⟩)

/-- Only pushes are handed to bridges. -/
theorem step_pushed (pr : Printer) (srv : Server E I) (w : World E) (e : Ev I) (he : ∀ l now b, e ≠ .server l now (.pushed b)) (l : Nat) :
    pushedOn l (w.step pr srv e).2 = [] := by
  cases e with
  | lib p e =>
    simp only [World.step]
    split
    · rfl
    · split <;> exact pushedOn_settle ..
  | call p tag T now cmd =>
    simp only [World.step]
    split
    · rfl
    · split <;> (rw [pushedOn_cons_called]; exact pushedOn_settle ..)
  | fire p cmd =>
    simp only [World.step]
    split
    · rfl
    · split <;> rfl
  | toServer l n => simp only [World.step]; split <;> rfl
  | server l' now e =>
    cases e with
    | complete i =>
      cases hf : (w.links l').conn.running[i]? with
      | none => simp [World.step, hf, pushedOn]
      | some f => simp [World.step, hf, pushedOn]
    | read f => rfl
    | pushed b => exact absurd rfl (he _ _ _)
    | spawn | post _ | bridge | write => simp only [World.step]; split <;> rfl
  | drop l => rfl
  | toClient l' n =>
    simp only [World.step]
    split
    · exact pushedOn_settle ..
    · rfl
  | tick x => rfl

/-- A step makes at most one connection, and ended connections stay ended. -/
theorem step_made (pr : Printer) (srv : Server E I) (w : World E) (e : Ev I) :
    ((w.step pr srv e).1.made = w.made ∨
      (w.step pr srv e).1.made = w.made + 1 ∧ ∃ p, e = .lib p .opened ∧ (w.peers p).lib.socket = .connecting) ∧
    ∀ l, l < w.made → ((w.step pr srv e).1.links l).ended = false → (w.links l).ended = false := by
  have hl : ∀ (k : Link E) (l₀ : Nat), (k.ended = false → (w.links l₀).ended = false) → ∀ l, (upd w.links l₀ k l).ended = false → (w.links l).ended = false := by
    intro k l₀ hk l h
    by_cases hll : l = l₀
    · subst hll; rw [upd_same] at h; exact hk h
    · rw [upd_other _ _ hll] at h; exact h
  cases e with
  | lib p e =>
    simp only [World.step]
    split
    · exact ⟨.inl rfl, fun l _ h => h⟩
    · split
      · next hop =>
        refine ⟨.inr ⟨rfl, p, by rw [hop.1], hop.2⟩, ?_⟩
        intro l hl h
        dsimp only at h
        rw [upd_other _ _ (by omega)] at h
        exact h
      · exact ⟨.inl rfl, fun l _ h => h⟩
  | call p tag T now cmd =>
    simp only [World.step]
    split
    · exact ⟨.inl rfl, fun l _ h => h⟩
    · split
      · refine ⟨.inl (by first | rfl | trivial), fun l _ h => hl _ _ ?_ l h⟩; exact fun h => h
      · exact ⟨.inl rfl, fun l _ h => h⟩
  | fire p cmd =>
    simp only [World.step]
    split
    · exact ⟨.inl rfl, fun l _ h => h⟩
    · split
      · refine ⟨.inl (by first | rfl | trivial), fun l _ h => hl _ _ ?_ l h⟩; exact fun h => h
      · exact ⟨.inl rfl, fun l _ h => h⟩
  | toServer l n =>
    simp only [World.step]
    split
    · exact ⟨.inl rfl, fun l _ h => h⟩
    · refine ⟨.inl (by first | rfl | trivial), fun l _ h => hl _ _ ?_ l h⟩; exact fun h => h
  | server l' now e =>
    cases e with
    | complete i =>
      simp only [World.step]
      refine ⟨.inl (by first | rfl | trivial), fun l _ h => hl _ _ ?_ l h⟩; exact fun h => h
    | read f => exact ⟨.inl rfl, fun l _ h => h⟩
    | pushed _ | spawn | post _ | bridge | write =>
      simp only [World.step]
      split
      · exact ⟨.inl rfl, fun l _ h => h⟩
      · refine ⟨.inl (by first | rfl | trivial), fun l _ h => hl _ _ ?_ l h⟩; exact fun h => h
  | drop l' => exact ⟨.inl rfl, fun l _ => hl { w.links l' with ended := true } l' (fun h => nomatch h) l⟩
  | toClient l' n =>
    simp only [World.step]
    split
    · refine ⟨.inl (by first | rfl | trivial), fun l _ h => hl _ _ ?_ l h⟩; exact fun h => h
    · exact ⟨.inl rfl, fun l _ h => h⟩
  | tick x => exact ⟨.inl rfl, fun l _ h => h⟩

/-! ### The invariant -/

/-- The act comes from connection `l`, or ends it. -/
def about (bg : I → Option PubSub.Op) (l : Nat) (a : Act I) : Prop := (∃ cmd now r, a = Act.did l cmd now r) ∨ endsLink bg l a

/-- Before that the broker was told of the connection. -/
def Orderly (bg : I → Option PubSub.Op) (A : List (Act I)) : Prop :=
  ∀ u a v l, A = u ++ a :: v → about bg l a → ∃ x, Act.ticked x ∈ u ∧ bg x = some (.connect l)

/-- What connects the broker with the connections: it has been told of the first `n`; `sent` has been handed over. -/
structure Ready (pr : Printer) (srv : Server E I) (env : HubEnv) (bg : I → Option PubSub.Op) (e0 : E) (w : World E) (tr : List (Obs I))
    (arr : List (Nat × Bytes)) (sent : List (Nat × PubSub.Msg)) (n : Nat) : Prop where
  inv : Inv pr w tr
  facts : Facts pr srv e0 w tr
  fed : Fed w tr arr
  range : PubSub.connects (hubOps env bg 0 (acts tr)) = List.range n
  chan : ∀ l, l < w.made → (w.links l).ended = false → pushedOn l tr = (sentTo l sent).map packetOf
  pre : ∀ l, pushedOn l tr <+: (sentTo l sent).map packetOf
  only : ∀ c m, (c, m) ∈ sent → c < n
  before : Orderly bg (acts tr)
  alive : ∀ l, l < w.made → (w.links l).ended = false → ∀ a ∈ acts tr, ¬ endsLink bg l a

theorem hubOps_connect {env : HubEnv} {bg : I → Option PubSub.Op} {l k : Nat} {A : List (Act I)} (h : l ∈ PubSub.connects (hubOps env bg k A)) :
    ∃ x, Act.ticked x ∈ A ∧ bg x = some (.connect l) := by
  induction A generalizing k with
  | nil => cases h
  | cons a A ih =>
    simp only [hubOps, PubSub.connects_append] at h
    rcases List.mem_append.mp h with h | h
    · cases a with
      | did l' cmd now r => cases cmd <;> simp [hubOp, hubCall, PubSub.connects] at h
      | ticked x =>
        simp only [hubOp] at h
        cases hx : bg x with
        | none => rw [hx] at h; cases h
        | some op =>
          rw [hx] at h
          cases op <;> simp [PubSub.connects] at h
          next c => subst h; exact ⟨x, List.mem_cons_self .., hx⟩
    · obtain ⟨x, h1, h2⟩ := ih h
      exact ⟨x, List.mem_cons_of_mem _ h1, h2⟩

section
variable {pr : Printer} {srv : Server E I} {env : HubEnv} {bg : I → Option PubSub.Op} {e0 : E}

theorem connect_hubOps {l : Nat} {A : List (Act I)} (k : Nat) {x : I} (h : Act.ticked x ∈ A) (hx : bg x = some (.connect l)) :
    l ∈ PubSub.connects (hubOps env bg k A) := by
  induction A generalizing k with
  | nil => cases h
  | cons a A ih =>
    simp only [hubOps, PubSub.connects_append]
    rcases List.mem_cons.mp h with rfl | h
    · exact List.mem_append.mpr (.inl (by simp [hubOp, hx, PubSub.connects]))
    · exact List.mem_append.mpr (.inr (ih _ h))

theorem before_snoc {A B : List (Act I)} {n : Nat} (hr : PubSub.connects (hubOps env bg 0 A) = List.range n) (h : Orderly bg A)
    (hB : B = A ∨ ∃ a, B = A ++ [a] ∧ ∀ l, about bg l a → l < n) : Orderly bg B := by
  intro u a v l hs ha
  rcases hB with rfl | ⟨b, rfl, hl'⟩
  · exact h u a v l hs ha
  · rcases v.eq_nil_or_concat with rfl | ⟨v', x, rfl⟩
    · obtain ⟨h1, h2⟩ := List.append_inj' hs rfl
      injection h2 with h2
      subst h1 h2
      exact hubOps_connect (k := 0) (env := env) (by rw [hr]; exact List.mem_range.mpr (hl' l ha))
    · rw [List.concat_eq_append, ← List.cons_append, ← List.append_assoc] at hs
      exact h u a v' l (List.append_inj' hs rfl).1 ha

/-- A step of the world in which the broker is not told of a connection and nothing is handed over. -/
theorem Ready.step {w : World E} {tr : List (Obs I)} {arr : List (Nat × Bytes)} {sent : List (Nat × PubSub.Msg)}
    (h : Ready pr srv env bg e0 w tr arr sent w.made) (e : Ev I) (ho : Ordinary pr srv (tr ++ (w.step pr srv e).2))
    (hpush : ∀ l now b, e ≠ .server l now (.pushed b)) (htick : ∀ x c, e = .tick x → bg x ≠ some (.connect c))
    (hends : ∀ x l, e = .tick x → endsLink bg l (.ticked x) → l < w.made ∧ (w.links l).ended = true) :
    Ready pr srv env bg e0 (w.step pr srv e).1 (tr ++ (w.step pr srv e).2) (arr ++ arriving w e) sent w.made := by
  obtain ⟨hmade, hend⟩ := step_made pr srv w e
  have hinv := h.inv.step e ho
  have hp := step_pushed pr srv w e hpush
  have hacts := step_acts pr srv w tr e
  refine ⟨hinv, h.facts.step h.inv e ho.left, h.fed.step h.inv e (by
    cases e with
    | server l now e =>
      cases e with
      | pushed b => exact absurd rfl (hpush _ _ _)
      | _ => trivial
    | _ => trivial), ?_, ?_, ?_, h.only, ?_, ?_⟩
  · rcases hacts with hA | ⟨l, cmd, now, r, hA, _⟩ | ⟨x, rfl, hA⟩
    · rw [hA]; exact h.range
    · rw [hA, hubOps_snoc, PubSub.connects_append, h.range]
      have : PubSub.connects (hubOp env bg (hubOps env bg 0 (acts tr)).length (Act.did l cmd now r)).toList = [] := by
        cases cmd <;> rfl
      rw [this, List.append_nil]
    · rw [hA, hubOps_snoc, PubSub.connects_append, h.range]
      have : PubSub.connects (hubOp env bg (hubOps env bg 0 (acts tr)).length (Act.ticked x)).toList = [] := by
        simp only [hubOp]
        cases hx : bg x with
        | none => rfl
        | some op =>
          cases op with
          | connect c => exact absurd hx (htick x c rfl)
          | _ => rfl
      rw [this, List.append_nil]
  · intro l hl he
    rw [pushedOn_append, hp, List.append_nil]
    by_cases hlm : l < w.made
    · exact h.chan l hlm (hend l hlm he)
    · rw [(h.fed.unmade l (by omega)).1, sentTo_nil (fun m hm => hlm (h.only l m hm))]; rfl
  · intro l
    rw [pushedOn_append, hp, List.append_nil]; exact h.pre l
  · refine before_snoc h.range h.before ?_
    rcases hacts with hA | ⟨l, cmd, now, r, hA, hx, now', i, rfl⟩ | ⟨x, rfl, hA⟩
    · exact .inl hA
    · refine .inr ⟨_, hA, ?_⟩
      rintro l' (⟨cmd', now'', r', ha⟩ | ⟨x, ha, _⟩)
      · injection ha with ha
        subst ha
        rcases Nat.lt_or_ge l w.made with hlt | hge
        · exact hlt
        · have := (hinv.unmade l (by
            rcases hmade with hm | ⟨_, p, hpe, _⟩
            · rw [hm]; exact hge
            · cases hpe)).2
          rw [execOn_append] at this
          exact absurd (List.append_eq_nil_iff.mp this).2 hx
      · cases ha
    · refine .inr ⟨_, hA, ?_⟩
      rintro l' (⟨cmd', now'', r', ha⟩ | ha)
      · cases ha
      · exact (hends x l' rfl ha).1
  · intro l hl he b hb hbe
    have hold : b ∈ acts tr → False := by
      intro hb
      by_cases hlm : l < w.made
      · exact h.alive l hlm (hend l hlm he) b hb hbe
      · obtain ⟨x, y, hxy⟩ := List.append_of_mem hb
        obtain ⟨i, hi, hbi⟩ := h.before x b y l hxy (.inr hbe)
        have : l ∈ PubSub.connects (hubOps env bg 0 (acts tr)) := connect_hubOps 0 (by rw [hxy]; exact List.mem_append.mpr (.inl hi)) hbi
        rw [h.range] at this
        exact hlm (List.mem_range.mp this)
    rcases hacts with hA | ⟨l', cmd, now, r, hA, _⟩ | ⟨x, rfl, hA⟩
    · rw [hA] at hb; exact hold hb
    · rw [hA] at hb
      rcases List.mem_append.mp hb with hb | hb
      · exact hold hb
      · rw [List.mem_singleton.mp hb] at hbe
        obtain ⟨_, h1, _⟩ := hbe
        cases h1
    · rw [hA] at hb
      rcases List.mem_append.mp hb with hb | hb
      · exact hold hb
      · rw [List.mem_singleton.mp hb] at hbe
        obtain ⟨h1, h2⟩ := hends x l rfl hbe
        rw [hend l h1 he] at h2
        cases h2

/-- A message is handed over. -/
theorem Ready.push {w : World E} {tr : List (Obs I)} {arr : List (Nat × Bytes)} {sent : List (Nat × PubSub.Msg)} {n : Nat}
    (h : Ready pr srv env bg e0 w tr arr sent n) (c : Nat) (m : PubSub.Msg) (hc : c < n) (hcm : c < w.made)
    (ho : Ordinary pr srv (tr ++ (w.step pr srv (.server c 0 (.pushed (packetOf m)))).2)) :
    Ready pr srv env bg e0 (w.step pr srv (.server c 0 (.pushed (packetOf m)))).1 (tr ++ (w.step pr srv (.server c 0 (.pushed (packetOf m)))).2)
      arr (sent ++ [(c, m)]) n := by
  have hinv := h.inv.step _ ho
  have hfacts := h.facts.step h.inv (.server c 0 (.pushed (packetOf m))) ho.left
  have hfed := h.fed.step (srv := srv) h.inv (.server c 0 (.pushed (packetOf m))) hcm
  rw [show arriving w (.server c 0 (.pushed (packetOf m)) : Ev I) = [] from rfl, List.append_nil] at hfed
  have hacts : acts (tr ++ (w.step pr srv (.server c 0 (.pushed (packetOf m)))).2) = acts tr := by
    apply acts_calm
    simp only [World.step]
    split
    · intro o ho; cases ho
    · intro o ho; rw [List.mem_singleton.mp ho]; rfl
  have hone : ∀ l, (sentTo l (sent ++ [(c, m)])).map packetOf = (sentTo l sent).map packetOf ++ if l = c then [packetOf m] else [] := by
    intro l
    rw [sentTo_append, List.map_append]
    congr 1
    by_cases hl : l = c
    · subst hl; simp [sentTo]
    · simp [sentTo, hl, Ne.symm hl]
  obtain ⟨hmade, hend⟩ := step_made pr srv w (.server c 0 (.pushed (packetOf m)))
  have hmade' : (w.step pr srv (.server c 0 (.pushed (packetOf m)))).1.made = w.made := by
    rcases hmade with hm | ⟨_, p, hpe, _⟩
    · exact hm
    · cases hpe
  have hnew : ∀ l, pushedOn l (w.step pr srv (.server c 0 (.pushed (packetOf m)))).2 =
      if l = c ∧ (w.links c).ended = false then [packetOf m] else [] := by
    intro l
    simp only [World.step]
    cases he : (w.links c).ended with
    | true => simp [pushedOn]
    | false =>
      by_cases hl : l = c
      · subst hl; simp [pushedOn]
      · simp [pushedOn, hl, Ne.symm hl]
  refine ⟨hinv, hfacts, hfed, by rw [hacts]; exact h.range, ?_, ?_, ?_, by rw [hacts]; exact h.before, ?_⟩
  · intro l hl he
    rw [hmade'] at hl
    rw [pushedOn_append, hnew, hone, h.chan l hl (hend l hl he)]
    congr 1
    by_cases hlc : l = c
    · subst hlc; simp [hend l hl he]
    · simp [hlc]
  · intro l
    rw [pushedOn_append, hnew, hone]
    by_cases hlc : l = c ∧ (w.links c).ended = false
    · obtain ⟨rfl, he⟩ := hlc
      rw [if_pos ⟨rfl, he⟩, if_pos rfl, h.chan l hcm he]
      exact List.prefix_rfl
    · rw [if_neg hlc, List.append_nil]
      exact (h.pre l).trans (List.prefix_append _ _)
  · intro c' m' hm
    rcases List.mem_append.mp hm with hm | hm
    · exact h.only c' m' hm
    · injection List.mem_singleton.mp hm with h1 _
      rw [h1]; exact hc
  · intro l hl he
    rw [hacts]
    rw [hmade'] at hl
    exact h.alive l hl (hend l hl he)

/-- What the engine does not do, when messages are handed over. -/
theorem push_engine (w : World E) (c : Nat) (b : Bytes) : (w.step pr srv (.server c 0 (.pushed b))).1.engine = w.engine ∧
    (w.step pr srv (.server c 0 (.pushed b))).1.made = w.made := by
  simp only [World.step]
  split <;> exact ⟨rfl, rfl⟩

def pushEvs (ext : List (Nat × PubSub.Msg)) : List (Ev I) := ext.map (fun e => .server e.1 0 (.pushed (wirePush e.2.topic e.2.payload)))

theorem Ready.hand (ext : List (Nat × PubSub.Msg)) : ∀ {w : World E} {tr : List (Obs I)} {arr : List (Nat × Bytes)} {sent : List (Nat × PubSub.Msg)} {n : Nat},
    Ready pr srv env bg e0 w tr arr sent n → n ≤ w.made → (∀ c m, (c, m) ∈ ext → c < n) → Ordinary pr srv (tr ++ (w.run pr srv (pushEvs ext)).2) →
    Ready pr srv env bg e0 (w.run pr srv (pushEvs ext)).1 (tr ++ (w.run pr srv (pushEvs ext)).2) (arr ++ arrivals pr srv w (pushEvs ext)) (sent ++ ext) n ∧
      (w.run pr srv (pushEvs ext)).1.engine = w.engine ∧ (w.run pr srv (pushEvs ext)).1.made = w.made := by
  induction ext with
  | nil => intro w tr arr sent n h hn _ ho; simpa [pushEvs, World.run, arrivals] using h
  | cons x ext ih =>
    obtain ⟨c, m⟩ := x
    intro w tr arr sent n h hn hx ho
    simp only [pushEvs, List.map_cons, World.run, arrivals] at ho ⊢
    have hc := hx c m (List.mem_cons_self ..)
    rw [← List.append_assoc] at ho ⊢
    have h1 := h.push (srv := srv) c m hc (by omega) ho.left
    obtain ⟨e1, e2⟩ := push_engine (pr := pr) (srv := srv) w c (packetOf m)
    obtain ⟨h2, h3, h4⟩ := ih h1 (by rw [e2]; exact hn) (fun c' m' hm => hx c' m' (List.mem_cons_of_mem _ hm)) ho
    refine ⟨?_, h3.trans e1, h4.trans e2⟩
    rw [List.append_assoc tr, List.append_assoc sent, List.singleton_append] at h2
    rw [List.append_assoc tr]
    exact h2

end

end Verif.Rpc
