import Verif.Proofs.PubSubRpc6

/-!
# Lemmas about publish/subscribe behind the network: everything arrives
-/

namespace Verif.Rpc

open Verif Verif.Wire Verif.Sdk

variable {E I : Type}

section
variable {pr : Printer} {srv : Server E I} {env : HubEnv} {part : E → Hub} {bg : I → Option PubSub.Op} {desk : Desk I} {e0 : E}

/-- Once nothing is on its way, all that was sent has arrived. -/
theorem arrived_all {w : World E} {tr : List (Obs I)} {arr : List (Nat × Bytes)} {sent : List (Nat × PubSub.Msg)} {n : Nat}
    (h : Ready pr srv env bg e0 w tr arr sent n) (ho : Ordinary pr srv tr) {p l : Nat} (hl : (w.peers p).link = some l)
    (he : (w.links l).ended = false) (hd : Delivered w l) : arrivedOver l arr = sentTo l sent := by
  obtain ⟨hlm, _⟩ := (h.inv.peers p).client l hl
  obtain ⟨seen, rest, h1, h2, h3⟩ := h.fed.read p l hl
  obtain ⟨d1, d2, d3⟩ := hd
  have hfit : ∀ o ∈ rest, o.Fits := fun o ho => (h.inv.links l).fits.1 o
    (mem_outs.mpr (.inl (by rw [h1]; exact List.mem_append.mpr (.inr ho))))
  rw [d3] at h2
  have hrest := read_all_ts hfit h2 (h.fed.buf p)
  subst hrest
  have hc := h.fed.chan l hlm
  rw [d1, d2, h1, List.append_nil] at hc
  have hall : readOn l arr = pushedOn l tr := by rw [h3, ← hc]; simp [packetsOf]
  have hch := h.chan l hlm he
  have hpre := read_back (bs := readOn l arr) ho (h.pre l) (by rw [hall]; exact List.prefix_rfl)
  rw [arrivedOver_eq]
  exact hpre.eq_of_length (by rw [List.length_map, hall, hch, List.length_map])

/-! ### Pumping -/

/-- `w'` is reached from `w` by work on connection `l` alone. -/
def Pumped (pr : Printer) (srv : Server E I) (l : Nat) (w w' : World E) : Prop :=
  ∃ es : List (Ev I), (∀ e ∈ es, e.pumps l = true) ∧ (w.run pr srv es).1 = w'

theorem Pumped.refl (l : Nat) (w : World E) : Pumped pr srv l w w := ⟨[], by simp, rfl⟩

theorem Pumped.trans {l : Nat} {a b c : World E} (h1 : Pumped pr srv l a b) (h2 : Pumped pr srv l b c) : Pumped pr srv l a c := by
  obtain ⟨e1, p1, rfl⟩ := h1
  obtain ⟨e2, p2, rfl⟩ := h2
  refine ⟨e1 ++ e2, ?_, by rw [world_run_append]⟩
  intro e he
  rcases List.mem_append.mp he with he | he
  · exact p1 e he
  · exact p2 e he

theorem Pumped.one {l : Nat} {w : World E} (e : Ev I) (h : e.pumps l = true) : Pumped pr srv l w (w.step pr srv e).1 :=
  ⟨[e], by simp [h], rfl⟩

theorem pump_bridge {l p : Nat} : ∀ (n : Nat) (w : World E), (w.links l).conn.pushes.length = n → (w.links l).ended = false → (w.peers p).link = some l →
    (w.links l).peer = p →
    ∃ w', Pumped pr srv l w w' ∧ (w'.links l).conn.pushes = [] ∧ (w'.links l).ended = false ∧ (w'.peers p).link = some l ∧ (w'.links l).peer = p := by
  intro n
  induction n with
  | zero => intro w hn he hl hp; exact ⟨w, .refl l w, List.eq_nil_of_length_eq_zero hn, he, hl, hp⟩
  | succ n ih =>
    intro w hn he hl hp
    have key : ((w.step pr srv (.server l 0 .bridge)).1.links l).conn.pushes = (w.links l).conn.pushes.tail ∧
        ((w.step pr srv (.server l 0 .bridge)).1.links l).ended = false ∧ ((w.step pr srv (.server l 0 .bridge)).1.peers p).link = some l ∧
        ((w.step pr srv (.server l 0 .bridge)).1.links l).peer = p := by
      cases hx : (w.links l).conn.pushes with
      | nil => rw [hx] at hn; cases hn
      | cons b t => simp [World.step, he, upd_same, Conn.step, hx, hl, hp]
    obtain ⟨k1, k2, k3, k4⟩ := key
    obtain ⟨w', h1, h2⟩ := ih (w.step pr srv (.server l 0 .bridge)).1 (by rw [k1, List.length_tail, hn]; rfl) k2 k3 k4
    exact ⟨w', (Pumped.one (I := I) (.server l 0 .bridge) (by simp [Ev.pumps])).trans h1, h2⟩

theorem pump_write {l p : Nat} : ∀ (n : Nat) (w : World E), (w.links l).conn.outbound.length = n → (w.links l).conn.pushes = [] → (w.links l).ended = false →
    (w.peers p).link = some l → (w.links l).peer = p →
    ∃ w', Pumped pr srv l w w' ∧ (w'.links l).conn.outbound = [] ∧ (w'.links l).conn.pushes = [] ∧ (w'.links l).ended = false ∧
      (w'.peers p).link = some l ∧ (w'.links l).peer = p := by
  intro n
  induction n with
  | zero => intro w hn hb he hl hp; exact ⟨w, .refl l w, List.eq_nil_of_length_eq_zero hn, hb, he, hl, hp⟩
  | succ n ih =>
    intro w hn hb he hl hp
    have key : ((w.step pr srv (.server l 0 .write)).1.links l).conn.outbound = (w.links l).conn.outbound.tail ∧
        ((w.step pr srv (.server l 0 .write)).1.links l).conn.pushes = [] ∧
        ((w.step pr srv (.server l 0 .write)).1.links l).ended = false ∧ ((w.step pr srv (.server l 0 .write)).1.peers p).link = some l ∧
        ((w.step pr srv (.server l 0 .write)).1.links l).peer = p := by
      cases hx : (w.links l).conn.outbound with
      | nil => rw [hx] at hn; cases hn
      | cons b t => simp [World.step, he, upd_same, Conn.step, hx, hl, hp, hb]
    obtain ⟨k1, k0, k2, k3, k4⟩ := key
    obtain ⟨w', h1, h2⟩ := ih (w.step pr srv (.server l 0 .write)).1 (by rw [k1, List.length_tail, hn]; rfl) k0 k2 k3 k4
    exact ⟨w', (Pumped.one (I := I) (.server l 0 .write) (by simp [Ev.pumps])).trans h1, h2⟩

theorem pump_all {l p : Nat} (w : World E) (he : (w.links l).ended = false) (hl : (w.peers p).link = some l) (hp : (w.links l).peer = p) :
    ∃ w', Pumped pr srv l w w' ∧ Delivered w' l ∧ (w'.links l).ended = false ∧ (w'.peers p).link = some l := by
  obtain ⟨w1, p1, h1, h2, h3, h4⟩ := pump_bridge (pr := pr) (srv := srv) (l := l) (p := p) _ w rfl he hl hp
  obtain ⟨w2, p2, k1, k2, k3, k4, k5⟩ := pump_write (pr := pr) (srv := srv) (l := l) (p := p) _ w1 rfl h1 h2 h3 h4
  refine ⟨(w2.step pr srv (.toClient l (w2.links l).toClient.length)).1,
    (p1.trans p2).trans (Pumped.one (I := I) _ (by simp [Ev.pumps])), ?_, ?_, ?_⟩
  · simp [World.step, k5, k4, upd_same, Delivered, k1, k2]
  · simp [World.step, k5, k4, upd_same, k3]
  · simp [World.step, k5, k4, upd_same]

theorem pump_quiet (w : World E) {l : Nat} {e : Ev I} (h : e.pumps l = true) : (w.step pr srv e).1.engine = w.engine ∧
    ∃ p outs, (w.step pr srv e).2 = settle p outs := by
  cases e with
  | server l' now e =>
    cases e with
    | bridge | write => simp only [World.step]; split <;> exact ⟨rfl, 0, [], rfl⟩
    | _ => cases h
  | toClient l' n =>
    simp only [World.step]
    split
    · exact ⟨rfl, _, _, rfl⟩
    · exact ⟨rfl, 0, [], rfl⟩
  | _ => cases h

theorem pump_run {l : Nat} (es : List (Ev I)) (h : ∀ e ∈ es, e.pumps l = true) : ∀ w : World E, (w.run pr srv es).1.engine = w.engine ∧
    ∀ o ∈ (w.run pr srv es).2, ∃ p t out, o = .settled p t out := by
  induction es with
  | nil => intro w; exact ⟨rfl, fun o ho => nomatch ho⟩
  | cons e es ih =>
    intro w
    obtain ⟨h1, p, outs, h2⟩ := pump_quiet (pr := pr) (srv := srv) w (h e (List.mem_cons_self ..))
    obtain ⟨h3, h4⟩ := ih (fun e he => h e (List.mem_cons_of_mem _ he)) (w.step pr srv e).1
    refine ⟨h3.trans h1, ?_⟩
    intro o ho
    rcases List.mem_append.mp ho with ho | ho
    · rw [h2] at ho
      obtain ⟨x, _, rfl⟩ := List.mem_map.mp ho
      exact ⟨p, _, _, rfl⟩
    · exact h4 o ho

/-- Pumping is pumping, also when the broker is watched. -/
theorem expand_pump {l : Nat} (es : List (Ev I)) (h : ∀ e ∈ es, e.pumps l = true) : ∀ w : World E,
    expand pr srv desk bg part w (es.map .ev) = es := by
  induction es with
  | nil => intro w; rfl
  | cons e es ih =>
    intro w
    have he := h e (List.mem_cons_self ..)
    have hfirst : (HEv.ev e).first desk bg w = [e] := by
      cases e with
      | server l' now e =>
        cases e with
        | bridge | write => simp [HEv.first, mine]
        | _ => cases he
      | toClient l' n => simp [HEv.first, mine]
      | _ => cases he
    have hst : (HEv.ev e).steps pr srv desk bg part w = [e] := by
      simp only [HEv.steps, hfirst, World.run, (pump_quiet (pr := pr) (srv := srv) w he).1, handOver, List.drop_length, List.map_nil, List.append_nil]
    simp only [List.map_cons, expand, hst, ih (fun e he => h e (List.mem_cons_of_mem _ he)), List.singleton_append]

theorem Ordinary.settled {tr new : List (Obs I)} (h : Ordinary pr srv tr) (hn : ∀ o ∈ new, ∃ p t out, o = Obs.settled p t out) :
    Ordinary pr srv (tr ++ new) := by
  refine ⟨?_, ?_, ?_, ?_⟩
  · intro o ho cmd hc
    rcases List.mem_append.mp ho with ho | ho
    · exact h.cmds o ho cmd hc
    · obtain ⟨p, t, out, rfl⟩ := hn o ho; cases hc
  · intro l f now r ho
    rcases List.mem_append.mp ho with ho | ho
    · exact h.answers l f now r ho
    · obtain ⟨p, t, out, h⟩ := hn _ ho; cases h
  · intro l b ho
    rcases List.mem_append.mp ho with ho | ho
    · exact h.pushes l b ho
    · obtain ⟨p, t, out, h⟩ := hn _ ho; cases h
  · intro p
    rw [List.countP_append]
    have : new.countP (Obs.isBy p) = 0 := by
      rw [List.countP_eq_zero]
      intro o ho
      obtain ⟨_, _, _, rfl⟩ := hn o ho
      simp [Obs.isBy]
    rw [this]; exact h.ids p

theorem expand_append (w : World E) (a b : List (HEv I)) : expand pr srv desk bg part w (a ++ b) =
    expand pr srv desk bg part w a ++ expand pr srv desk bg part (w.run pr srv (expand pr srv desk bg part w a)).1 b := by
  induction a generalizing w with
  | nil => rfl
  | cons x a ih => simp only [List.cons_append, expand, ih, world_run_append, List.append_assoc]

end

end Verif.Rpc
