import Verif.Proofs.House
import Verif.Props.Engine
import Verif.Props.QueueShop
import Verif.Props.StreamDesk

/-!
# C111: the whole server is one object (linearizability)
-/

namespace Verif.Rpc

open Verif Verif.Wire Verif.Sdk

variable {E I : Type}

/-- **C111.** The server's answers to store commands, from all connections, in the order in which they were carried out, are those of a partial
function from keys to values with an expiry, on which one command after the other is carried out, with the cleanup between them. -/
theorem C111_store (pr : Printer) (srv : Server E I) {dflt : Nat} {st : E → Store.Map} {sw : I → Option (Str × Nat)} (hp : StorePart srv dflt st sw)
    (e0 : E) (h0 : st e0 = []) (es : List (Ev I)) {tr : List (Obs I)} (htr : tr = ((World.init e0).run pr srv es).2) (ho : Ordinary pr srv tr)
    {u w : List (Act I)} {l now : Nat} {cmd : Cmd} {r : Option Response} (hs : acts tr = u ++ .did l cmd now r :: w) (hc : isStore cmd = true) :
    ((shelfAfter dflt sw u).serve dflt now cmd).2 = r := by
  have h := run_history pr srv e0 es htr ho
  rw [hs] at h
  exact shelf_answer hp h0 h hc

/-- **C111.** The server with all four brokers: its answers to the commands from all connections, in the order in which they were carried out,
are answers that the server of the specification may give, on which one command after the other is carried out, with the background tasks
between them. -/
theorem C111_sequential (pr : Printer) (c : Conf) (max : Nat) (sd : Serde) (pe un : Str) (hub0 : Hub) (es : List (Ev Task)) {tr : List (Obs Task)}
    (htr : tr = ((World.init { store := [], queues := {}, streams := {}, hub := hub0 : Engine }).run pr (engineServer c max sd pe un) es).2)
    (ho : Ordinary pr (engineServer c max sd pe un) tr) (hu : Uuids c.supply ((acts tr).countP isPush)) (hk : c.stream.Ok (acts tr))
    (hsm : Small (acts tr)) : ∃ h, HRun c (acts tr) h := by
  obtain ⟨p1, p2, p3, p4⟩ := C108_parts c max sd pe un
  obtain ⟨D, hD⟩ := C110_sequential pr _ p3 _ rfl es htr ho hk hsm
  refine ⟨_, house_run hD ⟨?_, ?_, ?_⟩⟩
  · intro u l cmd now r w hs hc
    exact C111_store pr _ p1 _ rfl es htr ho hs hc
  · intro u l cmd now r w hs hc
    exact C109_answers pr _ p2 _ rfl es htr ho hu hs hc
  · intro u l cmd now r w hs hc
    have h := run_history pr _ _ es htr ho
    rw [hs] at h
    rw [← h.answer, ← hub_answers (l := l) hc]
    exact (congrArg Prod.snd (p4.exec l now cmd _ hc)).symm

/-- The run of the specification up to and including an act. -/
theorem HRun.split {c : Conf} : ∀ (w : List (Act Task)) {u : List (Act Task)} {a : Act Task} {h₁ : House},
    HRun c (u ++ a :: w) h₁ → ∃ h h', HRun c u h ∧ HStep c h a h' := by
  intro w
  induction w using Sdk.snoc_ind with
  | h0 =>
    intro u a D₁ h
    generalize he : u ++ [a] = B at h
    cases h with
    | start => simp at he
    | @step A b D D' h1 h2 =>
      obtain ⟨rfl, he'⟩ := List.append_inj' he rfl
      injection he' with he'
      subst he'
      exact ⟨D, _, h1, h2⟩
  | h1 w b ih =>
    intro u a D₁ h
    generalize he : u ++ a :: (w ++ [b]) = B at h
    cases h with
    | start => simp at he
    | @step A d D D' h1 h2 =>
      have he' : (u ++ a :: w) ++ [b] = A ++ [d] := by rw [← he]; simp
      obtain ⟨h3, _⟩ := List.append_inj' he' rfl
      rw [← h3] at h1
      exact ih h1

/-- **C111.** A command, on any of the four brokers, whose promise is settled with an answer takes effect at one moment between the call and the
answer: it is carried out after everything that was carried out when it was called, and the promise tells an answer that the server of the
specification may give at that moment. -/
theorem C111_linearizable (pr : Printer) (c : Conf) (max : Nat) (sd : Serde) (pe un : Str) (hub0 : Hub) (es : List (Ev Task)) {tr : List (Obs Task)}
    (htr : tr = ((World.init { store := [], queues := {}, streams := {}, hub := hub0 : Engine }).run pr (engineServer c max sd pe un) es).2)
    (ho : Ordinary pr (engineServer c max sd pe un) tr) (hu : Uuids c.supply ((acts tr).countP isPush)) (hk : c.stream.Ok (acts tr))
    (hsm : Small (acts tr))
    {a b : List (Obs Task)} {p tag : Nat} {st : UInt8} {d : Bytes} {cmd : Cmd} (hs : tr = a ++ .settled p tag (.answer st d) :: b)
    (hc : ∀ c s, Obs.called p tag c s ∈ a → c = cmd) :
    ∃ a₁ a₂ s l now r x y h h', a = a₁ ++ .called p tag cmd s :: a₂ ∧ acts a = acts a₁ ++ x ++ .did l cmd now (some r) :: y ∧
      HRun c (acts a₁ ++ x) h ∧ HStep c h (.did l cmd now (some r)) h' ∧ shows r = (st, d) := by
  obtain ⟨a1, a2, s, l, now, r, x, y, h1, h2, h3⟩ := C101_carried_out pr _ _ es htr ho hs hc
  obtain ⟨D₁, hD⟩ := C111_sequential pr c max sd pe un hub0 es htr ho hu hk hsm
  have hA : acts tr = (acts a1 ++ x) ++ .did l cmd now (some r) :: (y ++ actsFrom a (.settled p tag (.answer st d) :: b)) := by
    rw [hs, acts_append, h2]; simp
  rw [hA] at hD
  obtain ⟨D, D', h4, h5⟩ := HRun.split _ hD
  exact ⟨a1, a2, s, l, now, r, x, y, D, D', h1, h2, h4, h5, h3⟩

/-- **C111.** The order agrees with time: if one command was answered before another one was called, on whatever connections and brokers, then it
was carried out before the other one. -/
theorem C111_order (pr : Printer) (srv : Server E I) (e0 : E) (es : List (Ev I)) {tr : List (Obs I)} (htr : tr = ((World.init e0).run pr srv es).2)
    (ho : Ordinary pr srv tr) {a b z : List (Obs I)} {p tag p' tag' : Nat} {st st' : UInt8} {d d' : Bytes} {cmd cmd' : Cmd}
    (hs : tr = a ++ .settled p tag (.answer st d) :: (b ++ .settled p' tag' (.answer st' d') :: z))
    (hc : ∀ c s, Obs.called p tag c s ∈ a → c = cmd) (hc' : ∀ c s, Obs.called p' tag' c s ∈ b → c = cmd')
    (hlate : ∀ c s, Obs.called p' tag' c s ∉ a) :
    ∃ u l now r v l' now' r' w, acts tr = u ++ .did l cmd now (some r) :: (v ++ .did l' cmd' now' (some r') :: w) ∧
      shows r = (st, d) ∧ shows r' = (st', d') := by
  obtain ⟨a1, a2, s, l, now, r, x, y, h1, h2, h3⟩ := C101_carried_out pr srv e0 es htr ho hs hc
  have hs' : tr = (a ++ .settled p tag (.answer st d) :: b) ++ .settled p' tag' (.answer st' d') :: z := by rw [hs]; simp
  obtain ⟨b1, b2, s', l', now', r', x', y', g1, g2, g3⟩ := C101_carried_out pr srv e0 es htr ho hs' (cmd := cmd') (by
    intro c s hm
    simp only [List.mem_append, List.mem_cons, reduceCtorEq, false_or] at hm
    exact hm.elim (fun hm => absurd hm (hlate c s)) (hc' c s))
  have hpre : ∃ m, b1 = a ++ m := by
    rcases List.append_eq_append_iff.1 g1 with ⟨m, hm, _⟩ | ⟨m, hm, hm'⟩
    · exact ⟨m, hm⟩
    · cases m with
      | nil => exact ⟨[], by rw [hm]; simp⟩
      | cons o m =>
        injection hm' with e _
        exact absurd (by rw [hm, ← e]; simp) (hlate cmd' s')
  obtain ⟨m, hm⟩ := hpre
  refine ⟨acts a1 ++ x, l, now, r, y ++ actsFrom a m ++ x', l', now', r',
    y' ++ actsFrom (a ++ .settled p tag (.answer st d) :: b) (.settled p' tag' (.answer st' d') :: z), ?_, h3, g3⟩
  rw [hs', acts_append, g2, hm, acts_append, h2]
  simp

/-! ### A concrete server (the one of `Props/Engine.lean`) -/

def exHouseTrace : List (Obs Task) := exEngineTrace

theorem exHouse_uuids : Uuids exConf.supply ((acts exHouseTrace).countP isPush) :=
  ⟨fun _ _ _ _ h => h, fun i hi => Nat.lt_of_lt_of_le hi (by decide)⟩

theorem exHouse_ok : exConf.stream.Ok (acts exHouseTrace) := by
  refine ⟨fun i j _ _ h => ?_, by decide⟩
  have := congrArg List.length h
  simpa [exConf, exStreamEnv] using this

theorem exHouse_acts : acts exHouseTrace = [.did 0 (.mapSet [107] ⟨none⟩ [0, 7]) 1 (some .ok), .did 1 (.qCreate [107] ⟨none, none⟩) 2 (some .ok),
    .did 1 (.qPush [107] ⟨none⟩ [0, 8]) 3 (some .ok), .did 1 (.sCreate [107] ⟨none⟩) 4 (some .ok), .did 0 (.mapGet [107]) 5 (some (.data [0, 7])),
    .did 1 (.subscribe [107]) 6 (some .ok)] := rfl

theorem exHouse_small : Small (acts exHouseTrace) := by
  rw [exHouse_acts]
  refine ⟨?_, by decide⟩
  intro l n pl now r hm
  simp at hm

/-- Six commands on all four brokers. -/
example : ∃ h, HRun exConf (acts exHouseTrace) h :=
  C111_sequential exPrinter exConf 1000 exSerde [] [] exHub0 exEngineEvents exEngineRun.symm exEngineOrdinary exHouse_uuids exHouse_ok exHouse_small

/-- The store's value is read between the call and the answer. -/
example : ∃ a₁ a₂ s l now r x y h h', exHouseTrace.take 14 = a₁ ++ .called 0 2 (.mapGet [107]) s :: a₂ ∧
    acts (exHouseTrace.take 14) = acts a₁ ++ x ++ .did l (.mapGet [107]) now (some r) :: y ∧
    HRun exConf (acts a₁ ++ x) h ∧ HStep exConf h (.did l (.mapGet [107]) now (some r)) h' ∧ shows r = (3, [0, 7]) :=
  C111_linearizable exPrinter exConf 1000 exSerde [] [] exHub0 exEngineEvents exEngineRun.symm exEngineOrdinary exHouse_uuids exHouse_ok exHouse_small
    (b := exHouseTrace.drop 15) rfl (by intro c s hm; simp [exHouseTrace, exEngineTrace, exEngineObs] at hm; exact hm.1)

/-- `C111_store`: the value is the one that was set. -/
example : ((shelfAfter 60 engineSweep ((acts exHouseTrace).take 4)).serve 60 5 (.mapGet [107])).2 = some (.data [0, 7]) :=
  C111_store exPrinter exEngineServer (C108_parts exConf 1000 exSerde [] []).1 exEngine0 rfl exEngineEvents exEngineRun.symm exEngineOrdinary
    (l := 0) (w := (acts exHouseTrace).drop 5) rfl rfl

/-- `C111_order`: the set was answered before the push was called. -/
example : ∃ u l now r v l' now' r' w, acts exHouseTrace = u ++ .did l (.mapSet [107] ⟨none⟩ [0, 7]) now (some r) ::
      (v ++ .did l' (.qPush [107] ⟨none⟩ [0, 8]) now' (some r') :: w) ∧ shows r = shows .ok ∧ shows r' = shows .ok :=
  C111_order exPrinter exEngineServer exEngine0 exEngineEvents exEngineRun.symm exEngineOrdinary (a := exHouseTrace.take 2)
    (b := (exHouseTrace.drop 3).take 5) (z := exHouseTrace.drop 9) (p := 0) (tag := 1) (p' := 1) (tag' := 2) rfl
    (by intro c s hm; simp [exHouseTrace, exEngineTrace, exEngineObs] at hm; exact hm.1) (by intro c s hm; simp [exHouseTrace, exEngineTrace, exEngineObs] at hm; exact hm.1)
    (by intro c s hm; simp [exHouseTrace, exEngineTrace, exEngineObs] at hm)

/-- The specification does not allow every answer: a value that has been set and lives on is read. -/
example (c : Conf) (h h' : House) (k : Str) (v : Bytes) (till now l : Nat) (hv : h.shelf k = some (v, till)) (ht : now ≤ till) (r : Option Response)
    (hst : HStep c h (.did l (.mapGet k) now r) h') : r = some (.data v) := by
  cases hst with
  | store _ _ _ _ _ hr =>
    rw [← hr]
    simp only [Shelf.serve, hv]
    rw [if_neg (by omega)]
  | _ => contradiction

end Verif.Rpc
