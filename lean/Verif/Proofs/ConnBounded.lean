import Verif.Spec.ConnBounded
import Verif.Proofs.Connection

/-!
# Lemmas about connections with bounded channels
-/

namespace Verif.Wire

variable {E : Type} {lim : Limits} {handle : Frame → E → E × Option Response}

/-! ### Forgetting the bounds -/

def Sock.taken : Sock → List Frame
  | .handing f => [f]
  | _ => []

def Sock.out : Sock → List Outbound
  | .writing o => [o]
  | _ => []

/-- The same connection without bounds. -/
def BConn.plain (s : BConn E) : Conn E :=
  { engine := s.engine, inbound := s.inbound, running := s.running, answered := s.answered, pushes := s.bridge.toList ++ s.pushes,
    outbound := s.outbound, written := s.received ++ s.wire ++ s.sock.out }

/-- What the step is without bounds. -/
def BConn.plainStep (s : BConn E) : BEvent → List CEvent
  | .handIn => s.sock.taken.map .read
  | .spawn => [.spawn]
  | .complete i => [.complete i]
  | .post i => [.post i]
  | .pushed p => [.pushed p]
  | .bridgePost => [.bridge]
  | .pick => [.write]
  | _ => []

/-- Frames that have not reached the main loop. -/
def BConn.ahead (s : BConn E) : List Frame := s.sock.taken ++ s.net ++ s.toSend

theorem plain_step {s s' : BConn E} {e : BEvent} (h : s.step lim handle e = some s') :
    s'.plain = Conn.run handle s.plain (s.plainStep e) ∧
    reads (s.plainStep e) ++ s'.ahead = s.ahead ++ asked [e] ∧ pushedOf (s.plainStep e) = bPushed [e] := by
  cases e with
  | ask f =>
    simp only [BConn.step, Option.some.injEq] at h
    subst h
    exact ⟨rfl, by simp [BConn.ahead, BConn.plainStep, reads, asked], rfl⟩
  | clientWrite =>
    simp only [BConn.step] at h
    split at h
    · cases h
    · next f rest hs =>
      split at h
      · injection h with h
        subst h
        exact ⟨rfl, by simp [BConn.ahead, BConn.plainStep, reads, asked, hs], rfl⟩
      · cases h
  | take =>
    simp only [BConn.step] at h
    split at h
    · next f rest h1 h2 =>
      injection h with h
      subst h
      exact ⟨by simp [BConn.plain, BConn.plainStep, Conn.run, h1, Sock.out], by simp [BConn.ahead, BConn.plainStep, reads, asked, h1, h2, Sock.taken], rfl⟩
    · cases h
  | handIn =>
    simp only [BConn.step] at h
    split at h
    · next f h1 =>
      split at h
      · injection h with h
        subst h
        exact ⟨by simp [BConn.plain, BConn.plainStep, Conn.run, Conn.step, h1, Sock.out, Sock.taken],
          by simp [BConn.ahead, BConn.plainStep, reads, asked, h1, Sock.taken], by simp [BConn.plainStep, h1, Sock.taken, pushedOf, bPushed]⟩
      · cases h
    · cases h
  | spawn =>
    simp only [BConn.step] at h
    split at h
    · cases h
    · next f rest h1 =>
      injection h with h
      subst h
      exact ⟨by simp [BConn.plain, BConn.plainStep, Conn.run, Conn.step, h1], by simp [BConn.ahead, BConn.plainStep, reads, asked], rfl⟩
  | complete i =>
    simp only [BConn.step] at h
    split at h
    · cases h
    · next f h1 =>
      injection h with h
      subst h
      exact ⟨by simp [BConn.plain, BConn.plainStep, Conn.run, Conn.step, h1], by simp [BConn.ahead, BConn.plainStep, reads, asked], rfl⟩
  | post i =>
    simp only [BConn.step] at h
    split at h
    · cases h
    · next f h1 =>
      split at h
      · injection h with h
        subst h
        exact ⟨by simp [BConn.plain, BConn.plainStep, Conn.run, Conn.step, h1], by simp [BConn.ahead, BConn.plainStep, reads, asked], rfl⟩
      · cases h
  | pushed p =>
    simp only [BConn.step, Option.some.injEq] at h
    subst h
    exact ⟨by simp [BConn.plain, BConn.plainStep, Conn.run, Conn.step], by simp [BConn.ahead, BConn.plainStep, reads, asked], rfl⟩
  | bridgeTake =>
    simp only [BConn.step] at h
    split at h
    · next p rest h1 h2 =>
      injection h with h
      subst h
      exact ⟨by simp [BConn.plain, BConn.plainStep, Conn.run, h1, h2], by simp [BConn.ahead, BConn.plainStep, reads, asked], rfl⟩
    · cases h
  | bridgePost =>
    simp only [BConn.step] at h
    split at h
    · cases h
    · next p h1 =>
      split at h
      · injection h with h
        subst h
        exact ⟨by simp [BConn.plain, BConn.plainStep, Conn.run, Conn.step, h1], by simp [BConn.ahead, BConn.plainStep, reads, asked], rfl⟩
      · cases h
  | pick =>
    simp only [BConn.step] at h
    split at h
    · next o rest h1 h2 =>
      injection h with h
      subst h
      exact ⟨by simp [BConn.plain, BConn.plainStep, Conn.run, Conn.step, h1, h2, Sock.out],
        by simp [BConn.ahead, BConn.plainStep, reads, asked, h1, Sock.taken], rfl⟩
    · cases h
  | flush =>
    simp only [BConn.step] at h
    split at h
    · next o h1 =>
      split at h
      · injection h with h
        subst h
        exact ⟨by simp [BConn.plain, BConn.plainStep, Conn.run, h1, Sock.out],
          by simp [BConn.ahead, BConn.plainStep, reads, asked, h1, Sock.taken], rfl⟩
      · cases h
    · cases h
  | clientRead =>
    simp only [BConn.step] at h
    split at h
    · cases h
    · next o rest h1 =>
      injection h with h
      subst h
      exact ⟨by simp [BConn.plain, BConn.plainStep, Conn.run, h1], by simp [BConn.ahead, BConn.plainStep, reads, asked], rfl⟩

theorem run_cons {s : BConn E} {e : BEvent} {es : List BEvent} {s'' : BConn E} (h : s.run lim handle (e :: es) = some s'') :
    ∃ s', s.step lim handle e = some s' ∧ s'.run lim handle es = some s'' := by
  simp only [BConn.run, Option.bind_eq_some_iff] at h
  exact h

theorem run_cons' {s s' : BConn E} {e : BEvent} {es : List BEvent} (h : s.step lim handle e = some s') :
    s.run lim handle (e :: es) = s'.run lim handle es := by
  simp only [BConn.run, h, Option.bind_some]

theorem brun_append {s : BConn E} (a b : List BEvent) :
    s.run lim handle (a ++ b) = (s.run lim handle a).bind (fun s' => s'.run lim handle b) := by
  induction a generalizing s with
  | nil => rfl
  | cons e a ih =>
    simp only [List.cons_append, BConn.run]
    cases s.step lim handle e with
    | none => rfl
    | some s' => simp only [Option.bind_some]; exact ih

theorem asked_append (a b : List BEvent) : asked (a ++ b) = asked a ++ asked b := by
  induction a with
  | nil => rfl
  | cons x a ih => cases x <;> simp only [List.cons_append, asked, ih]

theorem bPushed_append (a b : List BEvent) : bPushed (a ++ b) = bPushed a ++ bPushed b := by
  induction a with
  | nil => rfl
  | cons x a ih => cases x <;> simp only [List.cons_append, bPushed, ih]

theorem conn_run_append (s : Conn E) (a b : List CEvent) : s.run handle (a ++ b) = (s.run handle a).run handle b := by
  unfold Conn.run; rw [List.foldl_append]

theorem plain_run : ∀ (es : List BEvent) (s s' : BConn E), s.run lim handle es = some s' →
    ∃ cs, s'.plain = Conn.run handle s.plain cs ∧ reads cs ++ s'.ahead = s.ahead ++ asked es ∧ pushedOf cs = bPushed es := by
  intro es
  induction es with
  | nil =>
    intro s s' h
    simp only [BConn.run, Option.some.injEq] at h
    subst h
    exact ⟨[], rfl, by simp [reads, asked], rfl⟩
  | cons e es ih =>
    intro s s'' h
    obtain ⟨s', h1, h2⟩ := run_cons h
    obtain ⟨p1, p2, p3⟩ := plain_step h1
    obtain ⟨cs, q1, q2, q3⟩ := ih s' s'' h2
    refine ⟨s.plainStep e ++ cs, by rw [q1, p1, conn_run_append], ?_, ?_⟩
    · rw [reads_append, List.append_assoc, q2, ← List.append_assoc, p2, List.append_assoc, ← asked_append]; rfl
    · rw [pushedOf_append, p3, q3, ← bPushed_append]; rfl

/-! ### Every request is carried out once, and answered once -/

theorem serial_snoc (e : E) (fs : List Frame) (f : Frame) :
    serial handle e (fs ++ [f]) = ((handle f (serial handle e fs).1).1, (serial handle e fs).2 ++ answerOf f (handle f (serial handle e fs).1).2) := by
  induction fs generalizing e with
  | nil => simp only [List.nil_append, serial]; cases (handle f e).2 <;> simp [answerOf]
  | cons g fs ih => simp only [List.cons_append, serial, ih, List.append_assoc]

theorem responsesIn_append (a b : List Outbound) : responsesIn (a ++ b) = responsesIn a ++ responsesIn b := by
  induction a with
  | nil => rfl
  | cons x a ih => cases x <;> simp only [List.cons_append, responsesIn, ih]

/-- The requests carried out so far, in this order. -/
structure Account (handle : Frame → E → E × Option Response) (e0 : E) (c : Conn E) (sent : List Frame) (order : List Frame) : Prop where
  tasks : (order ++ c.running ++ c.inbound).Perm sent
  engine : c.engine = (serial handle e0 order).1
  answers : (responsesIn (c.written ++ c.outbound) ++ c.answered).Perm (serial handle e0 order).2

theorem account_run (e0 : E) (cs : List CEvent) : ∃ order, Account handle e0 (Conn.run handle { engine := e0 } cs) (reads cs) order := by
  induction cs using snoc_ind with
  | h0 => exact ⟨[], List.Perm.refl _, rfl, List.Perm.refl _⟩
  | h1 cs e ih =>
    rw [Conn.run_snoc, reads_append]
    generalize Conn.run handle { engine := e0 } cs = c at ih
    obtain ⟨order, t, en, an⟩ := ih
    cases e with
    | read f =>
      refine ⟨order, ?_, en, an⟩
      show (order ++ c.running ++ (c.inbound ++ [f])).Perm _
      rw [← List.append_assoc]
      exact t.append_right _
    | spawn =>
      refine ⟨order, ?_, ?_, ?_⟩
      · simp only [Conn.step]
        split
        · simpa [reads] using t
        · next f rest h => simpa [reads, h] using t
      · simp only [Conn.step]; split <;> exact en
      · simp only [Conn.step]; split <;> exact an
    | complete i =>
      cases hr : c.running[i]? with
      | none => rw [step_none hr]; exact ⟨order, by simpa [reads] using t, en, an⟩
      | some f =>
        rw [step_some hr]
        refine ⟨order ++ [f], ?_, ?_, ?_⟩
        · show (order ++ [f] ++ c.running.eraseIdx i ++ c.inbound).Perm (reads cs ++ [])
          rw [List.append_nil]
          refine List.Perm.trans ?_ t
          simp only [List.append_assoc, List.singleton_append]
          exact List.Perm.append_left _ ((perm_eraseIdx hr).append_right _)
        · rw [serial_snoc, ← en]
        · rw [serial_snoc, ← en]
          show (responsesIn (c.written ++ c.outbound) ++ (c.answered ++ _)).Perm _
          rw [← List.append_assoc]
          exact an.append_right _
    | post i =>
      cases hr : c.answered[i]? with
      | none => rw [post_none hr]; exact ⟨order, by simpa [reads] using t, en, an⟩
      | some a =>
        rw [post_some hr]
        refine ⟨order, by simpa [reads] using t, en, List.Perm.trans ?_ an⟩
        show (responsesIn (c.written ++ (c.outbound ++ [.response a.1 a.2])) ++ c.answered.eraseIdx i).Perm _
        rw [← List.append_assoc, responsesIn_append, List.append_assoc]
        exact List.Perm.append_left _ (perm_eraseIdx hr)
    | pushed p => exact ⟨order, by simpa [reads, Conn.step] using t, en, an⟩
    | bridge =>
      refine ⟨order, ?_, ?_, ?_⟩
      · simp only [Conn.step]; split <;> simpa [reads] using t
      · simp only [Conn.step]; split <;> exact en
      · simp only [Conn.step]
        split
        · exact an
        · simpa [responsesIn_append, responsesIn] using an
    | write =>
      refine ⟨order, ?_, ?_, ?_⟩
      · simp only [Conn.step]; split <;> simpa [reads] using t
      · simp only [Conn.step]; split <;> exact en
      · simp only [Conn.step]
        split
        · exact an
        · next o rest h => simpa [h] using an

/-! ### Nothing blocks for ever -/

/-- How many steps are needed at most. -/
def BConn.load (s : BConn E) : Nat :=
  9 * s.toSend.length + 8 * s.net.length + (match s.sock with | .idle => 0 | .handing _ => 7 | .writing _ => 2) + 6 * s.inbound.length
    + 5 * s.running.length + 4 * s.answered.length + 5 * s.pushes.length + (match s.bridge with | none => 0 | some _ => 4)
    + 3 * s.outbound.length + s.wire.length

theorem load_step {s s' : BConn E} {e : BEvent} (hw : e.work = true) (h : s.step lim handle e = some s') : s'.load < s.load := by
  cases e with
  | ask f => cases hw
  | pushed p => cases hw
  | clientWrite =>
    simp only [BConn.step] at h
    split at h
    · cases h
    · next f rest hs =>
      split at h
      · injection h with h
        subst h
        simp only [BConn.load, hs, List.length_cons, List.length_append, List.length_nil]; omega
      · cases h
  | take =>
    simp only [BConn.step] at h
    split at h
    · next f rest h1 h2 =>
      injection h with h
      subst h
      simp only [BConn.load, h1, h2, List.length_cons]; omega
    · cases h
  | handIn =>
    simp only [BConn.step] at h
    split at h
    · next f h1 =>
      split at h
      · injection h with h
        subst h
        simp only [BConn.load, h1, List.length_append, List.length_cons, List.length_nil]; omega
      · cases h
    · cases h
  | spawn =>
    simp only [BConn.step] at h
    split at h
    · cases h
    · next f rest h1 =>
      injection h with h
      subst h
      simp only [BConn.load, h1, List.length_cons, List.length_append, List.length_nil]; omega
  | complete i =>
    simp only [BConn.step] at h
    split at h
    · cases h
    · next f h1 =>
      injection h with h
      subst h
      have hl := (perm_eraseIdx h1).length_eq
      simp only [List.length_cons] at hl
      have ha : (answerOf f (handle f s.engine).2).length ≤ 1 := by cases (handle f s.engine).2 <;> simp [answerOf]
      simp only [BConn.load, List.length_append]; omega
  | post i =>
    simp only [BConn.step] at h
    split at h
    · cases h
    · next f h1 =>
      split at h
      · injection h with h
        subst h
        have hl := (perm_eraseIdx h1).length_eq
        simp only [List.length_cons] at hl
        simp only [BConn.load, List.length_append, List.length_cons, List.length_nil]; omega
      · cases h
  | bridgeTake =>
    simp only [BConn.step] at h
    split at h
    · next p rest h1 h2 =>
      injection h with h
      subst h
      simp only [BConn.load, h1, h2, List.length_cons]; omega
    · cases h
  | bridgePost =>
    simp only [BConn.step] at h
    split at h
    · cases h
    · next p h1 =>
      split at h
      · injection h with h
        subst h
        simp only [BConn.load, h1, List.length_append, List.length_cons, List.length_nil]; omega
      · cases h
  | pick =>
    simp only [BConn.step] at h
    split at h
    · next o rest h1 h2 =>
      injection h with h
      subst h
      simp only [BConn.load, h1, h2, List.length_cons]; omega
    · cases h
  | flush =>
    simp only [BConn.step] at h
    split at h
    · next o h1 =>
      split at h
      · injection h with h
        subst h
        simp only [BConn.load, h1, List.length_append, List.length_cons, List.length_nil]; omega
      · cases h
    · cases h
  | clientRead =>
    simp only [BConn.step] at h
    split at h
    · cases h
    · next o rest h1 =>
      injection h with h
      subst h
      simp only [BConn.load, h1, List.length_cons]; omega

theorem load_run : ∀ (es : List BEvent) (s s' : BConn E), (∀ e ∈ es, e.work = true) → s.run lim handle es = some s' →
    es.length + s'.load ≤ s.load := by
  intro es
  induction es with
  | nil => intro s s' _ h; simp only [BConn.run, Option.some.injEq] at h; subst h; simp
  | cons e es ih =>
    intro s s'' hw h
    obtain ⟨s', h1, h2⟩ := run_cons h
    have := ih s' s'' (fun x hx => hw x (List.mem_cons_of_mem _ hx)) h2
    have := load_step (hw e (List.mem_cons_self ..)) h1
    simp only [List.length_cons]; omega

/-- If nobody but a reading client could do anything, then everything that comes before the socket's writer is done, or the network is full. -/
theorem stuck_cases (hl : lim.Positive) {s : BConn E} (hs : s.Stuck lim handle) :
    (s.wire.length < lim.send → s.toSend = [] ∧ s.net = [] ∧ s.sock = .idle ∧ s.inbound = [] ∧ s.running = [] ∧ s.answered = [] ∧ s.pushes = [] ∧
      s.bridge = none ∧ s.outbound = []) := by
  intro hw
  have a1 : s.inbound = [] := by
    have := hs .spawn rfl (by simp)
    simp only [BConn.step] at this
    split at this
    · next h => exact h
    · cases this
  have a2 : s.sock = .idle := by
    have h1 := hs .handIn rfl (by simp)
    have h2 := hs .flush rfl (by simp)
    simp only [BConn.step] at h1 h2
    cases h : s.sock with
    | idle => rfl
    | handing f => simp [h, a1, hl.1] at h1
    | writing o => simp [h, hw] at h2
  have a3 : s.net = [] := by
    have := hs .take rfl (by simp)
    simp only [BConn.step, a2] at this
    split at this
    · cases this
    · next h => cases hn : s.net with
      | nil => rfl
      | cons f rest => exact absurd hn (h f rest rfl)
  have a4 : s.outbound = [] := by
    have := hs .pick rfl (by simp)
    simp only [BConn.step, a2] at this
    split at this
    · cases this
    · next h => cases hn : s.outbound with
      | nil => rfl
      | cons f rest => exact absurd hn (h f rest rfl)
  have a5 : s.toSend = [] := by
    have := hs .clientWrite rfl (by simp)
    simp only [BConn.step, a3] at this
    split at this
    · next h => exact h
    · simp [hl.2.1] at this
  have a6 : s.running = [] := by
    have := hs (.complete 0) rfl (by simp)
    simp only [BConn.step] at this
    cases hr : s.running with
    | nil => rfl
    | cons f rest => simp [hr] at this
  have a7 : s.answered = [] := by
    have := hs (.post 0) rfl (by simp)
    simp only [BConn.step, a4] at this
    cases hr : s.answered with
    | nil => rfl
    | cons f rest => simp [hr, hl.1] at this
  have a8 : s.bridge = none := by
    have := hs .bridgePost rfl (by simp)
    simp only [BConn.step, a4] at this
    cases hr : s.bridge with
    | none => rfl
    | some p => simp [hr, hl.1] at this
  have a9 : s.pushes = [] := by
    have := hs .bridgeTake rfl (by simp)
    simp only [BConn.step, a8] at this
    cases hr : s.pushes with
    | nil => rfl
    | cons p rest => simp [hr] at this
  exact ⟨a5, a3, a2, a1, a6, a7, a9, a8, a4⟩

end Verif.Wire
