import Verif.Proofs.QueueHist

/-! # Messages are handed out in the order in which they were pushed (C132)

For the specification of the queue (`Verif.Spec.Queue`). -/

namespace Verif.Spec.Queue

/-- `y` comes before `x` in the list. -/
def Before (P : List Nat) (y x : Nat) : Prop := x ∈ P ∧ P.idxOf y < P.idxOf x

theorem Before.left {P : List Nat} {y x : Nat} (h : Before P y x) : y ∈ P := by
  have : P.idxOf x < P.length := List.idxOf_lt_length_of_mem h.1
  exact List.idxOf_lt_length_iff.1 (by have := h.2; omega)

theorem idxOf_grow {P R : List Nat} {x : Nat} (h : x ∈ P) : (P ++ R).idxOf x = P.idxOf x := by
  simp [List.idxOf_append, h]

theorem idxOf_far {P R : List Nat} {x : Nat} (h : x ∉ P) : P.length ≤ (P ++ R).idxOf x := by
  simp [List.idxOf_append, h]

theorem Before.grow {P R : List Nat} {y x : Nat} (h : Before P y x) : Before (P ++ R) y x :=
  ⟨List.mem_append_left _ h.1, by rw [idxOf_grow h.1, idxOf_grow h.left]; exact h.2⟩

theorem Before.shrink {P R : List Nat} {y x : Nat} (h : Before (P ++ R) y x) (hx : x ∈ P) : Before P y x := by
  have h2 := h.2
  rw [idxOf_grow hx] at h2
  have : P.idxOf x < P.length := List.idxOf_lt_length_of_mem hx
  have hy : y ∈ P := Classical.byContradiction fun hy => by have := idxOf_far (R := R) hy; omega
  rw [idxOf_grow hy] at h2
  exact ⟨hx, h2⟩

/-- Wherever a message is. -/
def Q.has (a : Q) (id : Nat) : Prop := (∃ x ∈ a.ready, x.id = id) ∨ (∃ e ∈ a.flight, e.2.id = id) ∨ ∃ d ∈ a.dead, d.item.id = id

/-- `P`: the ids pushed so far; `H`: the ids handed out so far; `pr`: the priorities. -/
structure Fifo (pr : Nat → Nat) (P H : List Nat) (a : Q) : Prop where
  known : ∀ id, a.has id → id ∈ P
  given : ∀ id ∈ H, id ∈ P
  flight : ∀ e ∈ a.flight, e.2.id ∈ H
  dead : ∀ d ∈ a.dead, d.item.id ∈ H
  prR : ∀ x ∈ a.ready, x.priority = pr x.id
  prF : ∀ e ∈ a.flight, e.2.priority = pr e.2.id
  prD : ∀ d ∈ a.dead, d.item.priority = pr d.item.id
  fresh : ∀ x ∈ a.ready, x.id ∈ H ∨ x.attempts = 0
  line : a.ready.Pairwise (fun x y => y.id ∈ H ∨ y.priority < x.priority ∨ Before P x.id y.id)
  past : ∀ u x v, H = u ++ x :: v → ∀ y, Before P y x → pr x ≤ pr y → y ∈ u ∨ (y ∉ v ∧ ¬ a.has y)

theorem Fifo.init (pr : Nat → Nat) : Fifo pr [] [] Q.empty := by
  refine ⟨?_, ?_, ?_, ?_, ?_, ?_, ?_, ?_, .nil, ?_⟩
  · intro id h; rcases h with ⟨x, h, _⟩ | ⟨x, h, _⟩ | ⟨x, h, _⟩ <;> cases h
  all_goals first | (intro x h; cases h; done) | skip
  intro u x v h; simp at h

/-- A step that hands out nothing and adds nothing. -/
theorem Fifo.quiet {pr : Nat → Nat} {P H : List Nat} {a b : Q} (h : Fifo pr P H a) (hids : ∀ id, b.has id → a.has id)
    (hf : ∀ e ∈ b.flight, e ∈ a.flight) (hd : ∀ d ∈ b.dead, d.item.id ∈ H ∧ d.item.priority = pr d.item.id)
    (hr : ∀ x ∈ b.ready, x.priority = pr x.id ∧ (x.id ∈ H ∨ x.attempts = 0))
    (hl : b.ready.Pairwise (fun x y => y.id ∈ H ∨ y.priority < x.priority ∨ Before P x.id y.id)) : Fifo pr P H b :=
  { known := fun id hi => h.known id (hids id hi)
    given := h.given
    flight := fun e he => h.flight e (hf e he)
    dead := fun d hh => (hd d hh).1
    prR := fun x hx => (hr x hx).1
    prF := fun e he => h.prF e (hf e he)
    prD := fun d hh => (hd d hh).2
    fresh := fun x hx => (hr x hx).2
    line := hl
    past := fun u x v hu y hy hp => (h.past u x v hu y hy hp).imp_right (fun hh => ⟨hh.1, fun hb => hh.2 (hids y hb)⟩) }

theorem lined {x y : Item} {l : List Item} : y ∈ lineUp x l ↔ y = x ∨ y ∈ l := by
  simp only [lineUp, List.mem_append, List.mem_cons, List.mem_filter, decide_eq_true_eq]
  constructor
  · rintro (⟨h, _⟩ | h | ⟨h, _⟩)
    · exact .inr h
    · exact .inl h
    · exact .inr h
  · rintro (h | h)
    · exact .inr (.inl h)
    · by_cases hp : x.priority ≤ y.priority
      · exact .inl ⟨h, hp⟩
      · exact .inr (.inr ⟨h, by omega⟩)

/-- Lining up somebody who may stand behind everybody. -/
theorem line_up {H P : List Nat} {x : Item} {l : List Item}
    (h : l.Pairwise (fun x y => y.id ∈ H ∨ y.priority < x.priority ∨ Before P x.id y.id))
    (hx : ∀ y ∈ l, x.id ∈ H ∨ Before P y.id x.id) :
    (lineUp x l).Pairwise (fun x y => y.id ∈ H ∨ y.priority < x.priority ∨ Before P x.id y.id) := by
  unfold lineUp
  refine List.pairwise_append.2 ⟨h.filter _, List.pairwise_cons.2 ⟨?_, h.filter _⟩, ?_⟩
  · intro y hy
    exact .inr (.inl (by simpa using (List.mem_filter.1 hy).2))
  · intro y hy z hz
    obtain ⟨hy1, hy2⟩ := List.mem_filter.1 hy
    have hy2 : x.priority ≤ y.priority := by simpa using hy2
    rcases List.mem_cons.1 hz with rfl | hz
    · exact (hx y hy1).imp_right .inr
    · have : z.priority < x.priority := by simpa using (List.mem_filter.1 hz).2
      exact .inr (.inl (by omega))

/-- A push. -/
theorem Fifo.push {pr : Nat → Nat} {P H : List Nat} {a : Q} (h : Fifo pr P H a) {x : Item} (hn : x.id ∉ P) (hp : x.priority = pr x.id)
    (h0 : x.attempts = 0) : Fifo pr (P ++ [x.id]) H { a with ready := lineUp x a.ready } := by
  have hids : ∀ id, Q.has { a with ready := lineUp x a.ready } id → id = x.id ∨ a.has id := by
    rintro id (⟨y, hy, rfl⟩ | hh | hh)
    · rcases lined.1 hy with rfl | hy
      · exact .inl rfl
      · exact .inr (.inl ⟨y, hy, rfl⟩)
    · exact .inr (.inr (.inl hh))
    · exact .inr (.inr (.inr hh))
  refine ⟨?_, fun id hi => List.mem_append_left _ (h.given id hi), h.flight, h.dead, ?_, h.prF, h.prD, ?_, ?_, ?_⟩
  · intro id hi
    rcases hids id hi with rfl | hi
    · simp
    · exact List.mem_append_left _ (h.known id hi)
  · intro y hy
    rcases lined.1 hy with rfl | hy
    · exact hp
    · exact h.prR y hy
  · intro y hy
    rcases lined.1 hy with rfl | hy
    · exact .inr h0
    · exact h.fresh y hy
  · refine line_up (h.line.imp (fun hh => hh.imp_right (fun hh => hh.imp_right Before.grow))) ?_
    intro y hy
    have hyP := h.known y.id (.inl ⟨y, hy, rfl⟩)
    refine .inr ⟨by simp, ?_⟩
    rw [idxOf_grow hyP]
    have := idxOf_far (R := [x.id]) hn
    have : P.idxOf y.id < P.length := List.idxOf_lt_length_of_mem hyP
    omega
  · intro u z v hu y hy hpp
    have hz : z ∈ P := h.given z (by rw [hu]; simp)
    have hy := hy.shrink hz
    refine (h.past u z v hu y hy hpp).imp_right (fun hh => ⟨hh.1, fun hb => ?_⟩)
    rcases hids y hb with rfl | hb
    · exact hn hy.left
    · exact hh.2 hb

theorem filed {due : Nat} {x : Item} {l : List (Nat × Item)} {e : Nat × Item} : e ∈ file due x l ↔ e = (due, x) ∨ e ∈ l := by
  simp only [file, List.mem_append, List.mem_cons, List.mem_filter, decide_eq_true_eq]
  constructor
  · rintro (⟨h, _⟩ | h | ⟨h, _⟩)
    · exact .inr h
    · exact .inl h
    · exact .inr h
  · rintro (h | h)
    · exact .inr (.inl h)
    · by_cases hp : e.1 ≤ due
      · exact .inl ⟨h, hp⟩
      · exact .inr (.inr ⟨h, by omega⟩)

/-- Handing out one message. -/
theorem Fifo.serve {pr : Nat → Nat} {P H : List Nat} {a : Q} (h : Fifo pr P H a) {due : Nat} {x : Item} {rest : List Item}
    (hx : a.ready = x :: rest) : Fifo pr P (H ++ [x.id]) { a with ready := rest, flight := file due x.bump a.flight } := by
  have hl := h.line
  rw [hx, List.pairwise_cons] at hl
  have hmem : x ∈ a.ready := by rw [hx]; simp
  have hxa : a.has x.id := .inl ⟨x, hmem, rfl⟩
  have hsub : ∀ y ∈ rest, y ∈ a.ready := by intro y hy; rw [hx]; exact List.mem_cons_of_mem _ hy
  have hids : ∀ id, Q.has { a with ready := rest, flight := file due x.bump a.flight } id → a.has id := by
    rintro id (⟨y, hy, rfl⟩ | ⟨e, he, rfl⟩ | hh)
    · exact .inl ⟨y, hsub y hy, rfl⟩
    · rcases filed.1 he with rfl | he
      · exact hxa
      · exact .inr (.inl ⟨e, he, rfl⟩)
    · exact .inr (.inr hh)
  refine ⟨fun id hi => h.known id (hids id hi), ?_, ?_, fun d hd => List.mem_append_left _ (h.dead d hd), fun y hy => h.prR y (hsub y hy), ?_, h.prD,
    fun y hy => (h.fresh y (hsub y hy)).imp_left (List.mem_append_left _), hl.2.imp (fun hh => hh.imp_left (List.mem_append_left _)), ?_⟩
  · intro id hi
    rcases List.mem_append.1 hi with hi | hi
    · exact h.given id hi
    · rw [List.mem_singleton.1 hi]; exact h.known _ hxa
  · intro e he
    rcases filed.1 he with rfl | he
    · exact List.mem_append_right _ (by simp [Item.bump])
    · exact List.mem_append_left _ (h.flight e he)
  · intro e he
    rcases filed.1 he with rfl | he
    · exact h.prR x hmem
    · exact h.prF e he
  · intro u z v hu y hy hp
    rcases List.eq_nil_or_concat v with rfl | ⟨v', w, rfl⟩
    · obtain ⟨rfl, hz⟩ := List.append_inj' hu rfl
      simp only [List.cons.injEq, and_true] at hz
      subst hz
      by_cases hyH : y ∈ H
      · exact .inl hyH
      · refine .inr ⟨by simp, fun hb => ?_⟩
        have hne : y ≠ x.id := fun e => by rw [e] at hy; exact Nat.lt_irrefl _ hy.2
        rcases hb with ⟨z, hz, rfl⟩ | ⟨e, he, rfl⟩ | ⟨d, hd, rfl⟩
        · rcases hl.1 z hz with hh | hh | hh
          · exact hyH hh
          · rw [h.prR z (hsub z hz), h.prR x hmem] at hh; omega
          · have := hh.2; have := hy.2; omega
        · rcases filed.1 he with rfl | he
          · exact hne rfl
          · exact hyH (h.flight e he)
        · exact hyH (h.dead d hd)
    · rw [List.concat_eq_append] at hu ⊢
      have hu' : H ++ [x.id] = (u ++ z :: v') ++ [w] := by rw [hu]; simp
      obtain ⟨h1, h2⟩ := List.append_inj' hu' rfl
      simp only [List.cons.injEq, and_true] at h2
      subst h2
      refine (h.past u z v' h1 y hy hp).imp_right (fun hh => ⟨?_, fun hb => hh.2 (hids y hb)⟩)
      intro hm
      rcases List.mem_append.1 hm with hm | hm
      · exact hh.1 hm
      · rw [List.mem_singleton.1 hm] at hh; exact hh.2 hxa

theorem Fifo.serveN {pr : Nat → Nat} {P : List Nat} (due n : Nat) : ∀ {H : List Nat} {a : Q}, Fifo pr P H a →
    Fifo pr P (H ++ (Spec.Queue.serveN due n a).1.map (·.id)) (Spec.Queue.serveN due n a).2 := by
  induction n with
  | zero => intro H a h; simpa [Spec.Queue.serveN] using h
  | succ n ih =>
    intro H a h
    cases hr : a.ready with
    | nil => simpa [Spec.Queue.serveN, Spec.Queue.serve, hr] using h
    | cons x rest =>
      have := ih (h.serve (due := due) hr)
      simpa [Spec.Queue.serveN, Spec.Queue.serve, hr, Item.bump] using this

theorem line_up_all {H P : List Nat} (due : List Item) : ∀ {l : List Item}, (∀ x ∈ due, x.id ∈ H) →
    l.Pairwise (fun x y => y.id ∈ H ∨ y.priority < x.priority ∨ Before P x.id y.id) →
    (due.foldl (fun l x => lineUp x l) l).Pairwise (fun x y => y.id ∈ H ∨ y.priority < x.priority ∨ Before P x.id y.id) ∧
    ∀ y, y ∈ due.foldl (fun l x => lineUp x l) l → y ∈ due ∨ y ∈ l := by
  induction due with
  | nil => intro l _ h; exact ⟨h, fun y hy => .inr hy⟩
  | cons x due ih =>
    intro l hd h
    obtain ⟨h1, h2⟩ := ih (fun y hy => hd y (List.mem_cons_of_mem _ hy)) (line_up h (fun _ _ => .inl (hd x (by simp))))
    refine ⟨h1, fun y hy => ?_⟩
    rcases h2 y hy with hy | hy
    · exact .inl (List.mem_cons_of_mem _ hy)
    · rcases lined.1 hy with rfl | hy
      · exact .inl (by simp)
      · exact .inr hy

/-- A message that is handed out, or dead, goes elsewhere. -/
theorem lookupFlight_mem {id : Nat} {q : Q} {x : Item} (h : lookupFlight id q = some x) : ∃ e ∈ q.flight, e.2 = x ∧ x.id = id := by
  simp only [lookupFlight, Option.map_eq_some_iff] at h
  obtain ⟨e, he, rfl⟩ := h
  exact ⟨e, List.mem_of_find?_eq_some he, rfl, by simpa using List.find?_some he⟩

theorem lookupReady_mem {id : Nat} {q : Q} {x : Item} (h : lookupReady id q = some x) : x ∈ q.ready ∧ x.id = id :=
  ⟨List.mem_of_find?_eq_some h, by simpa using List.find?_some h⟩

theorem lookupDead_mem {id : Nat} {q : Q} {d : Dead} (h : lookupDead id q = some d) : d ∈ q.dead ∧ d.item.id = id :=
  ⟨List.mem_of_find?_eq_some h, by simpa using List.find?_some h⟩

/-- The ids a request pushes. -/
def Req.pushes : Req → List Nat
  | .push id _ _ _ => [id]
  | _ => []

/-- The priority a request gives a new message is the one of the table. -/
def Req.ranked (pr : Nat → Nat) : Req → Prop
  | .push id _ p _ => p = pr id
  | _ => True

theorem Fifo.step {pr : Nat → Nat} {P H : List Nat} {a : Q} (h : Fifo pr P H a) (vt mr : Nat) (hmr : 1 ≤ mr) (reason : Str) (r : Req)
    (hn : ∀ id ∈ r.pushes, id ∉ P) (hp : r.ranked pr) :
    Fifo pr (P ++ r.pushes) (H ++ (Spec.Queue.step vt mr reason a r).2.delivered) (Spec.Queue.step vt mr reason a r).1 := by
  have same : ∀ x ∈ a.ready, x.priority = pr x.id ∧ (x.id ∈ H ∨ x.attempts = 0) := fun x hx => ⟨h.prR x hx, h.fresh x hx⟩
  have sameD : ∀ d ∈ a.dead, d.item.id ∈ H ∧ d.item.priority = pr d.item.id := fun d hd => ⟨h.dead d hd, h.prD d hd⟩
  have drop : ∀ id, ∀ x ∈ dropReady id a.ready, x ∈ a.ready := fun id x hx => (List.mem_filter.1 hx).1
  have dropF : ∀ id, ∀ x ∈ dropFlight id a.flight, x ∈ a.flight := fun id x hx => (List.mem_filter.1 hx).1
  cases r with
  | push id payload priority now =>
    simp only [Spec.Queue.step, Ans.delivered, List.append_nil, Req.pushes]
    exact h.push (x := ⟨id, payload, priority, 0, now⟩) (hn id (by simp [Req.pushes])) hp rfl
  | pop now =>
    simp only [Spec.Queue.step, Ans.delivered, List.append_nil, Req.pushes]
    cases hr : a.ready with
    | nil => simpa [Spec.Queue.serve, hr] using h
    | cons x rest =>
      have := h.serve (due := now + vt) hr
      simpa [Spec.Queue.serve, hr, Item.bump] using this
  | consume max now =>
    simp only [Spec.Queue.step, Ans.delivered, List.append_nil, Req.pushes]
    exact h.serveN _ _
  | ack id =>
    simp only [Spec.Queue.step, Ans.delivered, List.append_nil, Req.pushes]
    refine h.quiet ?_ (dropF id) sameD (fun x hx => same x (drop id x hx)) (h.line.filter _)
    rintro i (⟨x, hx, rfl⟩ | ⟨x, hx, rfl⟩ | hh)
    · exact .inl ⟨x, drop id x hx, rfl⟩
    · exact .inr (.inl ⟨x, dropF id x hx, rfl⟩)
    · exact .inr (.inr hh)
  | nack id rs now =>
    simp only [Spec.Queue.step, Ans.delivered, List.append_nil, Req.pushes, fail]
    split
    · next x hx =>
      obtain ⟨e, he, rfl, hid⟩ := lookupFlight_mem hx
      split
      · refine h.quiet ?_ (dropF id) ?_ (fun x hx => same x (drop id x hx)) (h.line.filter _)
        · rintro i (⟨x, hx, rfl⟩ | ⟨x, hx, rfl⟩ | ⟨d, hd, rfl⟩)
          · exact .inl ⟨x, drop id x hx, rfl⟩
          · exact .inr (.inl ⟨x, dropF id x hx, rfl⟩)
          · rcases List.mem_append.1 hd with hd | hd
            · exact .inr (.inr ⟨d, hd, rfl⟩)
            · rw [List.mem_singleton.1 hd]; exact .inr (.inl ⟨e, he, rfl⟩)
        · intro d hd
          rcases List.mem_append.1 hd with hd | hd
          · exact sameD d hd
          · rw [List.mem_singleton.1 hd]; exact ⟨h.flight e he, h.prF e he⟩
      · refine h.quiet ?_ (dropF id) sameD ?_ (line_up h.line (fun _ _ => .inl (h.flight e he)))
        · rintro i (⟨x, hx, rfl⟩ | ⟨x, hx, rfl⟩ | hh)
          · rcases lined.1 hx with rfl | hx
            · exact .inr (.inl ⟨e, he, rfl⟩)
            · exact .inl ⟨x, hx, rfl⟩
          · exact .inr (.inl ⟨x, dropF id x hx, rfl⟩)
          · exact .inr (.inr hh)
        · intro x hx
          rcases lined.1 hx with rfl | hx
          · exact ⟨h.prF e he, .inl (h.flight e he)⟩
          · exact same x hx
    · split
      · next x hx =>
        obtain ⟨hx, hid⟩ := lookupReady_mem hx
        split
        · next hatt =>
          have hH : x.id ∈ H := (h.fresh x hx).resolve_right (by omega)
          refine h.quiet ?_ (dropF id) ?_ (fun x hx => same x (drop id x hx)) (h.line.filter _)
          · rintro i (⟨x, hx, rfl⟩ | ⟨x, hx, rfl⟩ | ⟨d, hd, rfl⟩)
            · exact .inl ⟨x, drop id x hx, rfl⟩
            · exact .inr (.inl ⟨x, dropF id x hx, rfl⟩)
            · rcases List.mem_append.1 hd with hd | hd
              · exact .inr (.inr ⟨d, hd, rfl⟩)
              · rw [List.mem_singleton.1 hd]; exact .inl ⟨x, hx, rfl⟩
          · intro d hd
            rcases List.mem_append.1 hd with hd | hd
            · exact sameD d hd
            · rw [List.mem_singleton.1 hd]; exact ⟨hH, h.prR x hx⟩
        · exact h
      · exact h
  | tick now now' =>
    simp only [Spec.Queue.step, Ans.delivered, List.append_nil, Req.pushes]
    split
    · have hdue : ∀ x ∈ (a.flight.filter (fun e => e.1 ≤ now')).map (·.2), ∃ e ∈ a.flight, e.2 = x := by
        intro x hx
        obtain ⟨e, he, rfl⟩ := List.mem_map.1 hx
        exact ⟨e, (List.mem_filter.1 he).1, rfl⟩
      obtain ⟨l1, l2⟩ := line_up_all (P := P) (H := H) (((a.flight.filter (fun e => e.1 ≤ now')).map (·.2)).filter (fun x => x.attempts < mr)) (l := a.ready) (by
        intro x hx
        obtain ⟨e, he, rfl⟩ := hdue x (List.mem_filter.1 hx).1
        exact h.flight e he) h.line
      refine h.quiet ?_ (fun e he => (List.mem_filter.1 he).1) ?_ ?_ l1
      · rintro i (⟨x, hx, rfl⟩ | ⟨x, hx, rfl⟩ | ⟨d, hd, rfl⟩)
        · rcases l2 x hx with hx | hx
          · obtain ⟨e, he, rfl⟩ := hdue x (List.mem_filter.1 hx).1
            exact .inr (.inl ⟨e, he, rfl⟩)
          · exact .inl ⟨x, hx, rfl⟩
        · exact .inr (.inl ⟨x, (List.mem_filter.1 hx).1, rfl⟩)
        · rcases List.mem_append.1 hd with hd | hd
          · exact .inr (.inr ⟨d, hd, rfl⟩)
          · obtain ⟨x, hx, rfl⟩ := List.mem_map.1 hd
            obtain ⟨e, he, rfl⟩ := hdue x (List.mem_filter.1 hx).1
            exact .inr (.inl ⟨e, he, rfl⟩)
      · intro d hd
        rcases List.mem_append.1 hd with hd | hd
        · exact sameD d hd
        · obtain ⟨x, hx, rfl⟩ := List.mem_map.1 hd
          obtain ⟨e, he, rfl⟩ := hdue x (List.mem_filter.1 hx).1
          exact ⟨h.flight e he, h.prF e he⟩
      · intro x hx
        rcases l2 x hx with hx | hx
        · obtain ⟨e, he, rfl⟩ := hdue x (List.mem_filter.1 hx).1
          exact ⟨h.prF e he, .inl (h.flight e he)⟩
        · exact same x hx
    · exact h
  | peekDlq limit offset => simpa [Spec.Queue.step, Ans.delivered, Req.pushes] using h
  | moveToQueue id =>
    simp only [Spec.Queue.step, Ans.delivered, List.append_nil, Req.pushes, replay]
    split
    · next d hd =>
      obtain ⟨hd, hid⟩ := lookupDead_mem hd
      refine h.quiet ?_ (fun e he => he) (fun d hd => sameD d (List.mem_filter.1 hd).1) ?_ (line_up h.line (fun _ _ => .inl (h.dead d hd)))
      · rintro i (⟨x, hx, rfl⟩ | hh | ⟨d', hd', rfl⟩)
        · rcases lined.1 hx with rfl | hx
          · exact .inr (.inr ⟨d, hd, rfl⟩)
          · exact .inl ⟨x, hx, rfl⟩
        · exact .inr (.inl hh)
        · exact .inr (.inr ⟨d', (List.mem_filter.1 hd').1, rfl⟩)
      · intro x hx
        rcases lined.1 hx with rfl | hx
        · exact ⟨h.prD d hd, .inl (h.dead d hd)⟩
        · exact same x hx
    · exact h
  | deleteDlq id =>
    simp only [Spec.Queue.step, Ans.delivered, List.append_nil, Req.pushes, discard]
    split
    · refine h.quiet ?_ (fun e he => he) (fun d hd => sameD d (List.mem_filter.1 hd).1) same h.line
      rintro i (hh | hh | ⟨d', hd', rfl⟩)
      · exact .inl hh
      · exact .inr (.inl hh)
      · exact .inr (.inr ⟨d', (List.mem_filter.1 hd').1, rfl⟩)
    · exact h
  | purgeDlq =>
    simp only [Spec.Queue.step, Ans.delivered, List.append_nil, Req.pushes]
    refine h.quiet ?_ (fun e he => he) (fun d hd => nomatch hd) same h.line
    rintro i (hh | hh | ⟨d', hd', rfl⟩)
    · exact .inl hh
    · exact .inr (.inl hh)
    · cases hd'
  | counters => simpa [Spec.Queue.step, Ans.delivered, Req.pushes] using h

end Verif.Spec.Queue
