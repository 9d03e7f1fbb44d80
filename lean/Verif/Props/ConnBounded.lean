import Verif.Proofs.ConnBounded

/-!
# C98, C99, C100: connections under load

The English statements are in `/verif/properties.jsonl`.  `s.step lim handle e` is `none` when the step `e` cannot be taken.
-/

namespace Verif.Wire

variable {E : Type} {lim : Limits} {handle : Frame → E → E × Option Response}

/-! ## C98 -/

/-- **C98.** Whatever is full, somebody can go on, as long as the client reads: in every state in which anything is under way,
some task, the network or the client can take a step. -/
theorem C98_progress (lim : Limits) (handle : Frame → E → E × Option Response) (hl : lim.Positive) (s : BConn E) (hd : ¬ s.Done) :
    ∃ e : BEvent, e.work = true ∧ (s.step lim handle e).isSome = true := by
  refine Classical.byContradiction fun hn => hd ?_
  have hn' : ∀ e : BEvent, e.work = true → s.step lim handle e = none := by
    intro e he
    cases h : s.step lim handle e with
    | none => rfl
    | some s' => exact absurd ⟨e, he, by rw [h]; rfl⟩ hn
  have hw : s.wire = [] := by
    have := hn' .clientRead rfl
    simp only [BConn.step] at this
    split at this
    · next h => exact h
    · cases this
  obtain ⟨a1, a2, a3, a4, a5, a6, a7, a8, a9⟩ := stuck_cases hl (fun e he _ => hn' e he) (by rw [hw]; exact hl.2.2)
  exact ⟨a1, a2, a3, a4, a5, a6, a7, a8, a9, hw⟩

/-- **C98.** And no schedule goes on for ever: without new requests and pushes there is a bound on the number of steps, so that
every schedule that goes on as long as it can ends with nothing under way (`C98_progress`). -/
theorem C98_terminates (lim : Limits) (handle : Frame → E → E × Option Response) (s : BConn E) :
    ∃ bound, ∀ es s', (∀ e ∈ es, e.work = true) → s.run lim handle es = some s' → es.length ≤ bound :=
  ⟨s.load, fun es s' hw h => by have := load_run es s s' hw h; omega⟩

/-- **C98.** When nothing is under way, every request has been carried out exactly once (in some order, as if one after the other),
each has been answered exactly once with the answer it got there (or its task panicked), and the pushes have arrived, in order. -/
theorem C98_complete (lim : Limits) (handle : Frame → E → E × Option Response) (e0 : E) (es : List BEvent) (s : BConn E)
    (h : BConn.run lim handle { engine := e0 } es = some s) (hd : s.Done) :
    ∃ order, order.Perm (asked es) ∧ s.engine = (serial handle e0 order).1 ∧ (responsesIn s.received).Perm (serial handle e0 order).2 ∧
      pushesIn s.received = bPushed es := by
  obtain ⟨cs, p1, p2, p3⟩ := plain_run es _ s h
  have p1' : s.plain = Conn.run handle { engine := e0 } cs := p1
  obtain ⟨d1, d2, d3, d4, d5, d6, d7, d8, d9, d10⟩ := hd
  obtain ⟨order, t, en, an⟩ := account_run (handle := handle) e0 cs
  have hp := pushes_order (handle := handle) e0 cs
  simp only at hp
  rw [← p1'] at t en an hp
  simp only [BConn.plain, BConn.ahead, d1, d2, d3, d4, d5, d6, d7, d8, d9, d10, Sock.taken, Sock.out, Option.toList_none, List.append_nil, List.nil_append,
    pushesIn] at p2 t en an hp
  exact ⟨order, by rw [p2] at t; exact t, en, an, by rw [hp, p3]⟩

/-- **C98.** Full channels only delay: every run with bounds is a run of `Model/Connection.lean`, in which nothing is ever full,
so that what holds of that model for all schedules (C08, C93–C96) holds here. -/
theorem C98_only_delays (lim : Limits) (handle : Frame → E → E × Option Response) (e0 : E) (es : List BEvent) (s : BConn E)
    (h : BConn.run lim handle { engine := e0 } es = some s) :
    ∃ cs, s.engine = (Conn.run handle { engine := e0 } cs).engine ∧ s.received <+: (Conn.run handle { engine := e0 } cs).written ∧
      reads cs <+: asked es ∧ pushedOf cs = bPushed es := by
  obtain ⟨cs, p1, p2, p3⟩ := plain_run es _ s h
  have p1' : s.plain = Conn.run handle { engine := e0 } cs := p1
  refine ⟨cs, by rw [← p1']; rfl, by rw [← p1']; exact ⟨s.wire ++ s.sock.out, by simp [BConn.plain]⟩, ?_, p3⟩
  have p2' : reads cs ++ s.ahead = asked es := p2
  exact ⟨_, p2'⟩

/-! ### A concrete run: one place everywhere, two requests and a push -/

def exLim : Limits := ⟨1, 1, 1⟩
def exHandle : Frame → Nat → Nat × Option Response := fun f n => (n + 1, if f.op = 9 then none else some (.data [UInt8.ofNat n]))
def exBusy : List BEvent :=
  [.ask ⟨1, 3, 10, []⟩, .ask ⟨1, 3, 11, []⟩, .pushed [9], .clientWrite, .take, .clientWrite, .handIn, .take, .spawn, .handIn, .spawn,
   .complete 1, .complete 0, .bridgeTake, .post 1, .pick, .bridgePost]

example : exLim.Positive := ⟨by decide, by decide, by decide⟩

/-- In the middle of it: the network is empty, the channel is full, a task waits. -/
example : (BConn.run exLim exHandle { engine := 0 } exBusy).map (fun s => (s.engine, s.answered, s.outbound, s.sock)) =
    some (2, [(11, .data [0])], [.push 0 [9]], .writing (.response 10 (.data [1]))) := by decide

example : (BConn.run exLim exHandle { engine := 0 } (exBusy ++ [.flush, .clientRead, .pick, .post 0, .flush, .clientRead, .pick, .flush, .clientRead])).map
    (fun s => (s.received, s.wire, s.outbound)) =
    some ([.response 10 (.data [1]), .push 0 [9], .response 11 (.data [0])], [], []) := by decide

/-- Every step of such a run is needed: the socket task cannot take the next frame before the network has accepted the last one. -/
example : BConn.run exLim exHandle { engine := 0 } (exBusy ++ [.pick]) = none ∧ BConn.run exLim exHandle { engine := 0 } (exBusy ++ [.post 0]) = none :=
  ⟨rfl, rfl⟩

/-! ## C99 -/

/-- Everything that is in the connection. -/
def BConn.count (s : BConn E) : Nat :=
  s.toSend.length + s.net.length + s.sock.taken.length + s.inbound.length + s.running.length + s.answered.length + s.pushes.length
    + s.bridge.toList.length + s.outbound.length + s.sock.out.length + s.wire.length

theorem count_step {s s' : BConn E} {e : BEvent} (h : s.step lim handle e = some s') :
    s'.count ≤ s.count + (asked [e]).length + (bPushed [e]).length := by
  cases e with
  | ask f =>
    simp only [BConn.step, Option.some.injEq] at h
    subst h
    simp only [BConn.count, asked, bPushed, List.length_append, List.length_cons, List.length_nil]; omega
  | pushed p =>
    simp only [BConn.step, Option.some.injEq] at h
    subst h
    simp only [BConn.count, asked, bPushed, List.length_append, List.length_cons, List.length_nil]; omega
  | clientWrite =>
    simp only [BConn.step] at h
    split at h
    · cases h
    · next f rest hs =>
      split at h
      · injection h with h
        subst h
        simp only [BConn.count, hs, List.length_cons, List.length_append, List.length_nil]; omega
      · cases h
  | take =>
    simp only [BConn.step] at h
    split at h
    · next f rest h1 h2 =>
      injection h with h
      subst h
      simp only [BConn.count, h1, h2, List.length_cons, List.length_nil, Sock.taken, Sock.out]; omega
    · cases h
  | handIn =>
    simp only [BConn.step] at h
    split at h
    · next f h1 =>
      split at h
      · injection h with h
        subst h
        simp only [BConn.count, h1, List.length_append, List.length_cons, List.length_nil, Sock.taken, Sock.out]; omega
      · cases h
    · cases h
  | spawn =>
    simp only [BConn.step] at h
    split at h
    · cases h
    · next f rest h1 =>
      injection h with h
      subst h
      simp only [BConn.count, h1, List.length_cons, List.length_append, List.length_nil]; omega
  | complete i =>
    simp only [BConn.step] at h
    split at h
    · cases h
    · next f h1 =>
      injection h with h
      subst h
      have hl := (perm_eraseIdx h1).length_eq
      simp only [List.length_cons] at hl
      have ha : (answerOf f (handle f s.engine).2).length ≤ 1 := by cases (handle f s.engine).2 <;> simp [answerOf]
      simp only [BConn.count, List.length_append]; omega
  | post i =>
    simp only [BConn.step] at h
    split at h
    · cases h
    · next f h1 =>
      split at h
      · injection h with h
        subst h
        have hl := (perm_eraseIdx h1).length_eq
        simp only [List.length_cons] at hl
        simp only [BConn.count, List.length_append, List.length_cons, List.length_nil]; omega
      · cases h
  | bridgeTake =>
    simp only [BConn.step] at h
    split at h
    · next p rest h1 h2 =>
      injection h with h
      subst h
      simp only [BConn.count, h1, h2, List.length_cons, Option.toList_some, Option.toList_none, List.length_nil]; omega
    · cases h
  | bridgePost =>
    simp only [BConn.step] at h
    split at h
    · cases h
    · next p h1 =>
      split at h
      · injection h with h
        subst h
        simp only [BConn.count, h1, List.length_append, List.length_cons, List.length_nil, Option.toList_some, Option.toList_none]; omega
      · cases h
  | pick =>
    simp only [BConn.step] at h
    split at h
    · next o rest h1 h2 =>
      injection h with h
      subst h
      simp only [BConn.count, h1, h2, List.length_cons, Sock.taken, Sock.out, List.length_nil]; omega
    · cases h
  | flush =>
    simp only [BConn.step] at h
    split at h
    · next o h1 =>
      split at h
      · injection h with h
        subst h
        simp only [BConn.count, h1, List.length_append, List.length_cons, List.length_nil, Sock.taken, Sock.out]; omega
      · cases h
    · cases h
  | clientRead =>
    simp only [BConn.step] at h
    split at h
    · cases h
    · next o rest h1 =>
      injection h with h
      subst h
      simp only [BConn.count, h1, List.length_cons]; omega

theorem count_run : ∀ (es : List BEvent) (s s' : BConn E), s.run lim handle es = some s' →
    s'.count ≤ s.count + (asked es).length + (bPushed es).length := by
  intro es
  induction es with
  | nil => intro s s' h; simp only [BConn.run, Option.some.injEq] at h; subst h; exact Nat.le_add_right_of_le (Nat.le_add_right _ _)
  | cons e es ih =>
    intro s s'' h
    obtain ⟨s', h1, h2⟩ := run_cons h
    have a := ih s' s'' h2
    have b := count_step h1
    have c : asked (e :: es) = asked [e] ++ asked es := asked_append [e] es
    have d : bPushed (e :: es) = bPushed [e] ++ bPushed es := bPushed_append [e] es
    rw [c, d, List.length_append, List.length_append]; omega

/-- **C99** (partial: answers and pushes together must fit into the network).  A client that does not read is not blocked, and its
requests are answered: when nobody but a reading client could do anything, all requests have been written, and all answers and
pushes are on their way. -/
theorem C99_not_blocked_partial (lim : Limits) (handle : Frame → E → E × Option Response) (hl : lim.Positive) (e0 : E) (es : List BEvent) (s : BConn E)
    (h : BConn.run lim handle { engine := e0 } es = some s) (hfit : (asked es).length + (bPushed es).length ≤ lim.send) (hs : s.Stuck lim handle) :
    s.toSend = [] ∧ s.net = [] ∧ s.sock = .idle ∧ s.inbound = [] ∧ s.running = [] ∧ s.answered = [] ∧ s.pushes = [] ∧ s.bridge = none ∧ s.outbound = [] := by
  by_cases hw : s.wire.length < lim.send
  · exact stuck_cases hl hs hw
  · have hc := count_run es _ s h
    have h0 : BConn.count ({ engine := e0 } : BConn E) = 0 := rfl
    rw [h0] at hc
    have hz : s.toSend.length + s.net.length + s.sock.taken.length + s.inbound.length + s.running.length + s.answered.length + s.pushes.length
        + s.bridge.toList.length + s.outbound.length + s.sock.out.length = 0 := by
      unfold BConn.count at hc; omega
    refine ⟨List.eq_nil_of_length_eq_zero (by omega), List.eq_nil_of_length_eq_zero (by omega), ?_, List.eq_nil_of_length_eq_zero (by omega),
      List.eq_nil_of_length_eq_zero (by omega), List.eq_nil_of_length_eq_zero (by omega), List.eq_nil_of_length_eq_zero (by omega), ?_,
      List.eq_nil_of_length_eq_zero (by omega)⟩
    · cases hk : s.sock with
      | idle => rfl
      | handing f => simp only [hk, Sock.taken, List.length_cons] at hz; omega
      | writing o => simp only [hk, Sock.out, List.length_cons] at hz; omega
    · cases hk : s.bridge with
      | none => rfl
      | some p => simp only [hk, Option.toList_some, List.length_cons] at hz; omega

/-- Nothing is under way but what the network holds for the client. -/
structure Calm (s : BConn E) : Prop where
  net : s.net = []
  sock : s.sock = .idle
  inbound : s.inbound = []
  running : s.running = []
  answered : s.answered = []
  pushes : s.pushes = []
  bridge : s.bridge = none
  outbound : s.outbound = []

/-- One request, from the client to the socket's writer. -/
theorem one_request (hl : lim.Positive) {s : BConn E} (hc : Calm s) {f : Frame} {rest : List Frame} (ht : s.toSend = f :: rest)
    {r : Response} (hr : (handle f s.engine).2 = some r) :
    s.run lim handle [.clientWrite, .take, .handIn, .spawn, .complete 0, .post 0, .pick] =
      some { s with engine := (handle f s.engine).1, toSend := rest, sock := .writing (.response f.id r) } := by
  obtain ⟨c1, c2, c3, c4, c5, c6, c7, c8⟩ := hc
  obtain ⟨l1, l2, l3⟩ := hl
  cases s
  simp only at c1 c2 c3 c4 c5 c6 c7 c8 ht hr
  subst c1 c2 c3 c4 c5 c6 c7 c8 ht
  simp [BConn.run, BConn.step, l1, l2, hr, answerOf]

/-- The client writes; nobody else does anything. -/
theorem fill_net (fs : List Frame) : ∀ (s : BConn E) (rest : List Frame), s.toSend = fs ++ rest → s.net.length + fs.length ≤ lim.recv →
    ∃ es, Unread es ∧ (∀ e ∈ es, e.work = true) ∧ s.run lim handle es = some { s with toSend := rest, net := s.net ++ fs } := by
  induction fs with
  | nil =>
    intro s rest ht _
    refine ⟨[], (fun e h => nomatch h), (fun e h => nomatch h), ?_⟩
    simp only [BConn.run, List.append_nil]
    rw [List.nil_append] at ht
    rw [← ht]
  | cons f fs ih =>
    intro s rest ht hn
    simp only [List.length_cons] at hn
    have h1 : s.step lim handle .clientWrite = some { s with toSend := fs ++ rest, net := s.net ++ [f] } := by
      simp only [BConn.step, ht, List.cons_append]
      rw [if_pos (by omega)]
    obtain ⟨es, a1, a2, a3⟩ := ih { s with toSend := fs ++ rest, net := s.net ++ [f] } rest rfl (by simp; omega)
    refine ⟨.clientWrite :: es, ?_, ?_, ?_⟩
    · intro e he; rcases List.mem_cons.mp he with rfl | he
      · simp
      · exact a1 e he
    · intro e he; rcases List.mem_cons.mp he with rfl | he
      · rfl
      · exact a2 e he
    · rw [run_cons' h1, a3]; simp

/-- Requests are answered until the network is full. -/
theorem fill_wire (hl : lim.Positive) (hp : ∀ f e, (handle f e).2 ≠ none) (fs : List Frame) : ∀ (s : BConn E) (rest : List Frame),
    Calm s → s.toSend = fs ++ rest → s.wire.length + fs.length ≤ lim.send →
    ∃ es s', Unread es ∧ (∀ e ∈ es, e.work = true) ∧ s.run lim handle es = some s' ∧ Calm s' ∧ s'.toSend = rest ∧ s'.wire.length = s.wire.length + fs.length := by
  induction fs with
  | nil => intro s rest hc ht _; exact ⟨[], s, (fun e h => nomatch h), (fun e h => nomatch h), rfl, hc, ht, rfl⟩
  | cons f fs ih =>
    intro s rest hc ht hn
    simp only [List.length_cons] at hn
    cases hr : (handle f s.engine).2 with
    | none => exact absurd hr (hp _ _)
    | some r =>
      have h1 := one_request (lim := lim) (handle := handle) hl hc ht hr
      have h2 : s.run lim handle ([.clientWrite, .take, .handIn, .spawn, .complete 0, .post 0, .pick] ++ [.flush]) =
          some { s with engine := (handle f s.engine).1, toSend := fs ++ rest, sock := .idle, wire := s.wire ++ [.response f.id r] } := by
        rw [brun_append, h1]
        simp only [Option.bind_some, BConn.run, BConn.step]
        rw [if_pos (by omega)]
        rfl
      obtain ⟨c1, c2, c3, c4, c5, c6, c7, c8⟩ := hc
      obtain ⟨es, s', a1, a2, a3, a4, a5, a6⟩ := ih { s with engine := (handle f s.engine).1, toSend := fs ++ rest, sock := .idle, wire := s.wire ++ [.response f.id r] } rest
        ⟨c1, rfl, c3, c4, c5, c6, c7, c8⟩ rfl (by simp; omega)
      refine ⟨([.clientWrite, .take, .handIn, .spawn, .complete 0, .post 0, .pick] ++ [.flush]) ++ es, s', ?_, ?_, ?_, a4, a5, ?_⟩
      · intro e he; rcases List.mem_append.mp he with he | he
        · simp only [List.mem_append, List.mem_cons, List.not_mem_nil, or_false] at he
          rcases he with (rfl | rfl | rfl | rfl | rfl | rfl | rfl) | rfl <;> simp
        · exact a1 e he
      · intro e he; rcases List.mem_append.mp he with he | he
        · simp only [List.mem_append, List.mem_cons, List.not_mem_nil, or_false] at he
          rcases he with (rfl | rfl | rfl | rfl | rfl | rfl | rfl) | rfl <;> rfl
        · exact a2 e he
      · rw [brun_append, h2]; exact a3
      · rw [a6]; simp only [List.length_append, List.length_cons, List.length_nil]; omega

/-- **C99 is violated.**  Whatever the capacities, a client that makes enough requests before it reads the first answer
(two more than the network holds in both directions) may be blocked for ever: the server does not read
because it cannot write, and the client cannot write because the server does not read. -/
theorem C99_violated (lim : Limits) (handle : Frame → E → E × Option Response) (hl : lim.Positive) (hp : ∀ f e, (handle f e).2 ≠ none) (e0 : E)
    (fs : List Frame) (hn : lim.send + lim.recv + 2 ≤ fs.length) :
    ∃ es s, Unread es ∧ (∀ e ∈ es, e.work = true) ∧ BConn.run lim handle { engine := e0, toSend := fs } es = some s ∧ s.toSend ≠ [] ∧ s.Stuck lim handle := by
  obtain ⟨es1, s1, a1, a2, a3, a4, a5, a6⟩ := fill_wire (lim := lim) (handle := handle) hl hp (fs.take lim.send) { engine := e0, toSend := fs } (fs.drop lim.send)
    ⟨rfl, rfl, rfl, rfl, rfl, rfl, rfl, rfl⟩ (List.take_append_drop _ _).symm (by simp only [List.length_nil, List.length_take]; omega)
  have hw : s1.wire.length = lim.send := by rw [a6]; simp only [List.length_nil, List.length_take]; omega
  cases ht : fs.drop lim.send with
  | nil => have := congrArg List.length ht; simp only [List.length_drop, List.length_nil] at this; omega
  | cons f rest =>
    have hlen : lim.recv + 1 ≤ rest.length := by
      have := congrArg List.length ht
      simp only [List.length_drop, List.length_cons] at this; omega
    rw [ht] at a5
    cases hr : (handle f s1.engine).2 with
    | none => exact absurd hr (hp _ _)
    | some r =>
      have h1 := one_request (lim := lim) (handle := handle) hl a4 a5 hr
      obtain ⟨es3, b1, b2, b3⟩ := fill_net (lim := lim) (handle := handle) (rest.take lim.recv)
        { s1 with engine := (handle f s1.engine).1, toSend := rest, sock := .writing (.response f.id r) } (rest.drop lim.recv)
        (List.take_append_drop _ _).symm (by simp only [a4.net, List.length_nil, List.length_take]; omega)
      refine ⟨es1 ++ ([.clientWrite, .take, .handIn, .spawn, .complete 0, .post 0, .pick] ++ es3),
        { s1 with engine := (handle f s1.engine).1, toSend := rest.drop lim.recv, net := s1.net ++ rest.take lim.recv, sock := .writing (.response f.id r) }, ?_, ?_, ?_, ?_, ?_⟩
      · intro e he
        rcases List.mem_append.mp he with he | he
        · exact a1 e he
        · rcases List.mem_append.mp he with he | he
          · simp only [List.mem_cons, List.not_mem_nil, or_false] at he
            rcases he with rfl | rfl | rfl | rfl | rfl | rfl | rfl <;> simp
          · exact b1 e he
      · intro e he
        rcases List.mem_append.mp he with he | he
        · exact a2 e he
        · rcases List.mem_append.mp he with he | he
          · simp only [List.mem_cons, List.not_mem_nil, or_false] at he
            rcases he with rfl | rfl | rfl | rfl | rfl | rfl | rfl <;> rfl
          · exact b2 e he
      · rw [brun_append, a3]
        simp only [Option.bind_some]
        rw [brun_append, h1]
        simp only [Option.bind_some]
        rw [b3]
      · intro hx
        have := congrArg List.length hx
        simp only [List.length_drop, List.length_nil] at this; omega
      · intro e he hne
        obtain ⟨c1, c2, c3, c4, c5, c6, c7, c8⟩ := a4
        cases e with
        | ask f => cases he
        | pushed p => cases he
        | clientRead => exact absurd rfl hne
        | clientWrite =>
          simp only [BConn.step]
          split
          · rfl
          · rw [if_neg]; simp only [c1, List.nil_append, List.length_take]; omega
        | take => rfl
        | handIn => rfl
        | spawn => simp only [BConn.step, c3]
        | complete i => simp only [BConn.step, c4, List.getElem?_nil]
        | post i => simp only [BConn.step, c5, List.getElem?_nil]
        | bridgeTake => simp only [BConn.step, c6, c7]
        | bridgePost => simp only [BConn.step, c7]
        | pick => rfl
        | flush => simp only [BConn.step]; rw [if_neg (by omega)]

/-- One place everywhere: four requests are enough. -/
example : (∀ (f : Frame) (n : Nat), ((fun _ n => (n + 1, some .ok) : Frame → Nat → Nat × Option Response) f n).2 ≠ none) ∧
    exLim.send + exLim.recv + 2 ≤ [(⟨1, 3, 1, []⟩ : Frame), ⟨1, 3, 2, []⟩, ⟨1, 3, 3, []⟩, ⟨1, 3, 4, []⟩].length := ⟨by intros; simp, by decide⟩

/-- And one request is answered, though nobody reads. -/
example : ∃ s, BConn.run exLim exHandle { engine := 0 } [.ask ⟨1, 3, 1, []⟩, .clientWrite, .take, .handIn, .spawn, .complete 0, .post 0, .pick, .flush] = some s ∧
    s.wire = [.response 1 (.data [0])] := ⟨_, rfl, rfl⟩

/-! ## C100 -/

theorem bounds_step {s s' : BConn E} {e : BEvent} (h : s.step lim handle e = some s')
    (hb : s.net.length ≤ lim.recv ∧ s.inbound.length ≤ lim.chan ∧ s.outbound.length ≤ lim.chan ∧ s.wire.length ≤ lim.send) :
    s'.net.length ≤ lim.recv ∧ s'.inbound.length ≤ lim.chan ∧ s'.outbound.length ≤ lim.chan ∧ s'.wire.length ≤ lim.send := by
  obtain ⟨b1, b2, b3, b4⟩ := hb
  cases e <;> simp only [BConn.step] at h <;> (repeat' split at h) <;> (first | cases h | injection h with h) <;> (try subst h) <;>
    simp_all only [List.length_append, List.length_cons, List.length_nil] <;> refine ⟨?_, ?_, ?_, ?_⟩ <;> first | trivial | omega

/-- **C100** (partial: the two channels and the network).  In every state of every run, the channels hold no more than
`channel_capacity_socket_write` frames each. -/
theorem C100_channels_partial (lim : Limits) (handle : Frame → E → E × Option Response) (e0 : E) (es : List BEvent) (s : BConn E)
    (h : BConn.run lim handle { engine := e0 } es = some s) : s.inbound.length ≤ lim.chan ∧ s.outbound.length ≤ lim.chan := by
  have : ∀ (es : List BEvent) (s s' : BConn E), s.run lim handle es = some s' →
      (s.net.length ≤ lim.recv ∧ s.inbound.length ≤ lim.chan ∧ s.outbound.length ≤ lim.chan ∧ s.wire.length ≤ lim.send) →
      (s'.net.length ≤ lim.recv ∧ s'.inbound.length ≤ lim.chan ∧ s'.outbound.length ≤ lim.chan ∧ s'.wire.length ≤ lim.send) := by
    intro es
    induction es with
    | nil => intro s s' h hb; simp only [BConn.run, Option.some.injEq] at h; subst h; exact hb
    | cons e es ih =>
      intro s s'' h hb
      obtain ⟨s', h1, h2⟩ := run_cons h
      exact ih s' s'' h2 (bounds_step h1 hb)
  have h1 := this es _ s h ⟨Nat.zero_le _, Nat.zero_le _, Nat.zero_le _, Nat.zero_le _⟩
  exact ⟨h1.2.1, h1.2.2.1⟩

/-- **C100 is violated, tasks.**  Nothing bounds the number of request tasks of a connection: whatever the capacities, a client that makes
requests faster than they are answered (a consumer that waits, say) can have any number of them running. -/
theorem C100_tasks_violated (lim : Limits) (handle : Frame → E → E × Option Response) (hl : lim.Positive) (e0 : E) (n : Nat) :
    ∃ es s, BConn.run lim handle { engine := e0 } es = some s ∧ s.running.length = n := by
  have : ∀ n, ∃ es s, BConn.run lim handle { engine := e0 } es = some s ∧ s.running.length = n ∧ s.toSend = [] ∧ s.net = [] ∧ s.sock = .idle ∧ s.inbound = [] := by
    intro n
    induction n with
    | zero => exact ⟨[], _, rfl, rfl, rfl, rfl, rfl, rfl⟩
    | succ n ih =>
      obtain ⟨es, s, h1, h2, h3, h4, h5, h6⟩ := ih
      refine ⟨es ++ [.ask ⟨1, 0, 0, []⟩, .clientWrite, .take, .handIn, .spawn], { s with running := s.running ++ [⟨1, 0, 0, []⟩] }, ?_, ?_, h3, h4, h5, h6⟩
      · rw [brun_append, h1]
        obtain ⟨l1, l2, l3⟩ := hl
        cases s
        simp only at h3 h4 h5 h6
        subst h3 h4 h5 h6
        simp [BConn.run, BConn.step, l1, l2]
      · simp [h2]
  obtain ⟨es, s, h1, h2, _⟩ := this n
  exact ⟨es, s, h1, h2⟩

theorem push_wire (hl : lim.Positive) (n : Nat) : ∀ (s : BConn E), Calm s → s.toSend = [] → s.wire.length + n ≤ lim.send →
    ∃ es s', Unread es ∧ s.run lim handle es = some s' ∧ Calm s' ∧ s'.toSend = [] ∧ s'.wire.length = s.wire.length + n := by
  induction n with
  | zero => intro s hc ht _; exact ⟨[], s, (fun e h => nomatch h), rfl, hc, ht, rfl⟩
  | succ n ih =>
    intro s hc ht hn
    have h1 : s.run lim handle [.pushed [], .bridgeTake, .bridgePost, .pick, .flush] = some { s with wire := s.wire ++ [.push 0 []] } := by
      obtain ⟨c1, c2, c3, c4, c5, c6, c7, c8⟩ := hc
      obtain ⟨l1, l2, l3⟩ := hl
      cases s
      simp only at c1 c2 c3 c4 c5 c6 c7 c8 ht hn
      subst c1 c2 c3 c4 c5 c6 c7 c8 ht
      simp only [BConn.run, BConn.step, List.nil_append, List.length_nil, l1, if_true, Option.bind_some]
      rw [if_pos (by omega)]
      rfl
    obtain ⟨c1, c2, c3, c4, c5, c6, c7, c8⟩ := hc
    obtain ⟨es, s', a1, a3, a4, a5, a6⟩ := ih { s with wire := s.wire ++ [.push 0 []] } ⟨c1, c2, c3, c4, c5, c6, c7, c8⟩ ht (by simp; omega)
    refine ⟨[.pushed [], .bridgeTake, .bridgePost, .pick, .flush] ++ es, s', ?_, ?_, a4, a5, ?_⟩
    · intro e he; rcases List.mem_append.mp he with he | he
      · simp only [List.mem_cons, List.not_mem_nil, or_false] at he
        rcases he with rfl | rfl | rfl | rfl | rfl <;> simp
      · exact a1 e he
    · rw [brun_append, h1]; exact a3
    · rw [a6]; simp only [List.length_append, List.length_cons, List.length_nil]; omega

theorem push_outbound (n : Nat) : ∀ (s : BConn E), s.bridge = none → s.pushes = [] → s.outbound.length + n ≤ lim.chan →
    ∃ es s', Unread es ∧ s.run lim handle es = some s' ∧ s'.bridge = none ∧ s'.pushes = [] ∧ s'.outbound.length = s.outbound.length + n ∧
      s'.sock = s.sock ∧ s'.wire = s.wire ∧ s'.toSend = s.toSend ∧ s'.net = s.net ∧ s'.inbound = s.inbound ∧ s'.running = s.running ∧ s'.answered = s.answered := by
  induction n with
  | zero => intro s hb hp _; exact ⟨[], s, (fun e h => nomatch h), rfl, hb, hp, rfl, rfl, rfl, rfl, rfl, rfl, rfl, rfl⟩
  | succ n ih =>
    intro s hb hp hn
    have h1 : s.run lim handle [.pushed [], .bridgeTake, .bridgePost] = some { s with outbound := s.outbound ++ [.push 0 []] } := by
      cases s
      simp only at hb hp hn
      subst hb hp
      simp only [BConn.run, BConn.step, List.nil_append, Option.bind_some]
      rw [if_pos (by omega)]
      rfl
    obtain ⟨es, s', a1, a2, a3, a4, a5, a6, a7⟩ := ih { s with outbound := s.outbound ++ [.push 0 []] } hb hp (by simp; omega)
    refine ⟨[.pushed [], .bridgeTake, .bridgePost] ++ es, s', ?_, ?_, a3, a4, ?_, a6, a7⟩
    · intro e he; rcases List.mem_append.mp he with he | he
      · simp only [List.mem_cons, List.not_mem_nil, or_false] at he
        rcases he with rfl | rfl | rfl <;> simp
      · exact a1 e he
    · rw [brun_append, h1]; exact a2
    · rw [a5]; simp only [List.length_append, List.length_cons, List.length_nil]; omega

theorem push_many (n : Nat) : ∀ (s : BConn E), ∃ es, Unread es ∧
    s.run lim handle es = some { s with pushes := s.pushes ++ List.replicate n [] } := by
  induction n with
  | zero => intro s; exact ⟨[], (fun e h => nomatch h), by simp [BConn.run]⟩
  | succ n ih =>
    intro s
    obtain ⟨es, a1, a2⟩ := ih { s with pushes := s.pushes ++ [[]] }
    refine ⟨.pushed [] :: es, ?_, ?_⟩
    · intro e he; rcases List.mem_cons.mp he with rfl | he
      · simp
      · exact a1 e he
    · rw [run_cons' (s' := { s with pushes := s.pushes ++ [[]] }) rfl, a2]
      simp [List.replicate_succ]

/-- **C100 is violated, pushes.**  A client that subscribes and does not read makes the server keep everything published since: whatever the
capacities, any number of packets can wait in the push channel though every task has done all it can. -/
theorem C100_pushes_violated (lim : Limits) (handle : Frame → E → E × Option Response) (hl : lim.Positive) (e0 : E) (n : Nat) :
    ∃ es s, Unread es ∧ BConn.run lim handle { engine := e0 } es = some s ∧ s.pushes.length = n ∧ s.Stuck lim handle := by
  obtain ⟨es1, s1, a1, a2, a3, a4, a5⟩ := push_wire (lim := lim) (handle := handle) hl lim.send { engine := e0 } ⟨rfl, rfl, rfl, rfl, rfl, rfl, rfl, rfl⟩ rfl (by simp)
  have hw : s1.wire.length = lim.send := by rw [a5]; simp
  have h2 : s1.run lim handle [.pushed [], .bridgeTake, .bridgePost, .pick] = some { s1 with sock := .writing (.push 0 []) } := by
    obtain ⟨c1, c2, c3, c4, c5, c6, c7, c8⟩ := a3
    obtain ⟨l1, l2, l3⟩ := hl
    cases s1
    simp only at c1 c2 c3 c4 c5 c6 c7 c8
    subst c1 c2 c3 c4 c5 c6 c7 c8
    simp [BConn.run, BConn.step, l1]
  obtain ⟨c1, c2, c3, c4, c5, c6, c7, c8⟩ := a3
  obtain ⟨es3, s3, b1, b2, b3, b4, b5, b6, b7, b8, b9, b10, b11, b12⟩ := push_outbound (lim := lim) (handle := handle) lim.chan
    { s1 with sock := .writing (.push 0 []) } c7 c6 (by simp [c8])
  have hout : s3.outbound.length = lim.chan := by rw [b5]; simp [c8]
  have h4 : s3.run lim handle [.pushed [], .bridgeTake] = some { s3 with bridge := some [] } := by
    cases s3
    simp only at b3 b4
    subst b3 b4
    simp [BConn.run, BConn.step]
  obtain ⟨es5, d1, d2⟩ := push_many (lim := lim) (handle := handle) n { s3 with bridge := some [] }
  refine ⟨es1 ++ ([.pushed [], .bridgeTake, .bridgePost, .pick] ++ (es3 ++ ([.pushed [], .bridgeTake] ++ es5))),
    { s3 with bridge := some [], pushes := s3.pushes ++ List.replicate n [] }, ?_, ?_, ?_, ?_⟩
  · intro e he
    simp only [List.mem_append, List.mem_cons, List.not_mem_nil, or_false] at he
    rcases he with he | (rfl | rfl | rfl | rfl) | he | (rfl | rfl) | he
    · exact a1 e he
    all_goals first | simp; done | exact b1 e he | exact d1 e he
  · rw [brun_append, a2]
    simp only [Option.bind_some]
    rw [brun_append, h2]
    simp only [Option.bind_some]
    rw [brun_append, b2]
    simp only [Option.bind_some]
    rw [brun_append, h4]
    exact d2
  · simp [b4]
  · intro e he hne
    cases e with
    | ask f => cases he
    | pushed p => cases he
    | clientRead => exact absurd rfl hne
    | clientWrite => simp only [BConn.step, b8, a4]
    | take => simp only [BConn.step, b6]
    | handIn => simp only [BConn.step, b6]
    | spawn => simp only [BConn.step, b10, c3]
    | complete i => simp only [BConn.step, b11, c4, List.getElem?_nil]
    | post i => simp only [BConn.step, b12, c5, List.getElem?_nil]
    | bridgeTake => simp only [BConn.step]
    | bridgePost => simp only [BConn.step]; rw [if_neg (by omega)]
    | pick => simp only [BConn.step, b6]
    | flush => simp only [BConn.step, b6, b7]; rw [if_neg (by omega)]

end Verif.Wire
