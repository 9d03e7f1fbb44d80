import Verif.Proofs.QueueHist

/-!
# First come, first served

While a message waits, no message with the same or a lower priority that was pushed after it is handed out.
-/

namespace Verif.Spec.Queue

/-- Message `A` is waiting, with priority `p`; no message in `B` is ahead of it, handed out, or outranks it. -/
structure Ahead (B : Nat → Prop) (A p : Nat) (q : Q) : Prop where
  line : ∃ l x r, q.ready = l ++ x :: r ∧ x.id = A ∧ x.priority = p ∧ ∀ y ∈ l, ¬ B y.id
  low : ∀ y ∈ q.ready, B y.id → y.priority ≤ p
  flight : ∀ e ∈ q.flight, ¬ B e.2.id
  dead : ∀ d ∈ q.dead, B d.item.id → d.item.priority ≤ p

variable {B : Nat → Prop} {A p : Nat}

theorem line_lineUp {r : List Item} (h : ∃ l x t, r = l ++ x :: t ∧ x.id = A ∧ x.priority = p ∧ ∀ y ∈ l, ¬ B y.id)
    (hl : ∀ y ∈ r, B y.id → y.priority ≤ p) {z : Item} (hz : B z.id → z.priority ≤ p) :
    (∃ l x t, lineUp z r = l ++ x :: t ∧ x.id = A ∧ x.priority = p ∧ ∀ y ∈ l, ¬ B y.id) ∧
    ∀ y ∈ lineUp z r, B y.id → y.priority ≤ p := by
  obtain ⟨l, x, t, rfl, hx, hp, hb⟩ := h
  constructor
  · unfold lineUp
    by_cases hc : z.priority ≤ x.priority
    · refine ⟨l.filter (fun y => z.priority ≤ y.priority), x, t.filter (fun y => z.priority ≤ y.priority) ++ z :: (l ++ x :: t).filter (fun y => y.priority < z.priority),
        ?_, hx, hp, fun y hy => hb y (List.mem_filter.1 hy).1⟩
      rw [List.filter_append, List.filter_cons_of_pos (by simpa using hc)]; simp
    · refine ⟨(l ++ x :: t).filter (fun y => z.priority ≤ y.priority) ++ z :: l.filter (fun y => y.priority < z.priority), x,
        t.filter (fun y => y.priority < z.priority), ?_, hx, hp, ?_⟩
      · rw [List.filter_append (p := fun y : Item => decide (y.priority < z.priority)), List.filter_cons_of_pos (p := fun y : Item => decide (y.priority < z.priority)) (by simp; omega)]; simp
      · intro y hy hby
        rcases List.mem_append.1 hy with hy | hy
        · obtain ⟨h1, h2⟩ := List.mem_filter.1 hy
          have := hl y h1 hby
          have h3 : z.priority ≤ y.priority := by simpa using h2
          omega
        · rcases List.mem_cons.1 hy with rfl | hy
          · have := hz hby; omega
          · exact hb y (List.mem_filter.1 hy).1 hby
  · intro y hy
    rcases mem_lineUp.1 hy with rfl | hy
    · exact hz
    · exact hl y hy

theorem Ahead.push {q : Q} (h : ∀ i ∈ q.ids, ¬ B i) (hA : ¬ B A) (pl : Bytes) (now : Nat) :
    Ahead B A p { q with ready := lineUp ⟨A, pl, p, 0, now⟩ q.ready } := by
  rw [ids_eq] at h
  refine ⟨⟨q.ready.filter (fun y => p ≤ y.priority), _, _, rfl, rfl, rfl, ?_⟩, ?_, ?_, ?_⟩
  · intro y hy
    exact h _ (List.mem_append_left _ (List.mem_map.2 ⟨y, (List.mem_filter.1 hy).1, rfl⟩))
  · intro y hy hb
    rcases mem_lineUp.1 hy with rfl | hy
    · exact absurd hb hA
    · exact absurd hb (h _ (List.mem_append_left _ (List.mem_map.2 ⟨y, hy, rfl⟩)))
  · intro e he
    exact h _ (List.mem_append_right _ (List.mem_append_left _ (List.mem_map.2 ⟨e, he, rfl⟩)))
  · intro d hd hb
    exact absurd hb (h _ (List.mem_append_right _ (List.mem_append_right _ (List.mem_map.2 ⟨d, hd, rfl⟩))))

theorem line_fold {xs : List Item} : ∀ {r : List Item}, (∃ l x t, r = l ++ x :: t ∧ x.id = A ∧ x.priority = p ∧ ∀ y ∈ l, ¬ B y.id) →
    (∀ y ∈ r, B y.id → y.priority ≤ p) → (∀ z ∈ xs, B z.id → z.priority ≤ p) →
    (∃ l x t, xs.foldl (fun l x => lineUp x l) r = l ++ x :: t ∧ x.id = A ∧ x.priority = p ∧ ∀ y ∈ l, ¬ B y.id) ∧
    ∀ y ∈ xs.foldl (fun l x => lineUp x l) r, B y.id → y.priority ≤ p := by
  induction xs with
  | nil => intro r h hl _; exact ⟨h, hl⟩
  | cons z xs ih =>
    intro r h hl hz
    obtain ⟨h1, h2⟩ := line_lineUp h hl (hz z (List.mem_cons_self ..))
    exact ih h1 h2 (fun y hy => hz y (List.mem_cons_of_mem _ hy))

theorem line_filter {r : List Item} {id : Nat} (h : ∃ l x t, r = l ++ x :: t ∧ x.id = A ∧ x.priority = p ∧ ∀ y ∈ l, ¬ B y.id) (hne : id ≠ A) :
    ∃ l x t, dropReady id r = l ++ x :: t ∧ x.id = A ∧ x.priority = p ∧ ∀ y ∈ l, ¬ B y.id := by
  obtain ⟨l, x, t, rfl, hx, hp, hb⟩ := h
  refine ⟨dropReady id l, x, dropReady id t, ?_, hx, hp, fun y hy => hb y (List.mem_filter.1 hy).1⟩
  unfold dropReady
  rw [List.filter_append, List.filter_cons_of_pos (by simp; omega)]

theorem mem_files {due : Nat} : ∀ (xs : List Item) {l : List (Nat × Item)} {e : Nat × Item},
    e ∈ xs.foldl (fun l x => file due x.bump l) l → e ∈ l ∨ ∃ x ∈ xs, e.2.id = x.id := by
  intro xs
  induction xs with
  | nil => intro l e h; exact .inl h
  | cons x xs ih =>
    intro l e h
    rcases ih h with h | ⟨y, hy, h⟩
    · rcases mem_file.1 h with rfl | h
      · exact .inr ⟨x, List.mem_cons_self .., rfl⟩
      · exact .inl h
    · exact .inr ⟨y, List.mem_cons_of_mem _ hy, h⟩

theorem Ahead.serveN {q : Q} (h : Ahead B A p q) (due n : Nat) :
    (Ahead B A p (Queue.serveN due n q).2 ∧ ∀ i ∈ (Queue.serveN due n q).1.map (·.id), ¬ B i) ∨
    ∃ l r, (Queue.serveN due n q).1.map (·.id) = l ++ A :: r ∧ ∀ i ∈ l, ¬ B i := by
  obtain ⟨e1, e2, e3, e4⟩ := serveN_eq due n q
  obtain ⟨l, x, r, hr, hx, hp, hb⟩ := h.line
  have hid : ∀ l : List Item, (l.map Item.bump).map (·.id) = l.map (·.id) := by
    intro l; rw [List.map_map]; rfl
  rw [e1, hid]
  by_cases hn : n ≤ l.length
  · left
    have htake : q.ready.take n = l.take n := by rw [hr, List.take_append_of_le_length hn]
    have hdrop : q.ready.drop n = l.drop n ++ x :: r := by rw [hr, List.drop_append_of_le_length hn]
    refine ⟨⟨?_, ?_, ?_, ?_⟩, ?_⟩
    · exact ⟨l.drop n, x, r, by rw [e2, hdrop], hx, hp, fun y hy => hb y (List.mem_of_mem_drop hy)⟩
    · intro y hy; rw [e2] at hy; exact h.low y (List.mem_of_mem_drop hy)
    · intro e he
      rw [e4, htake] at he
      rcases mem_files _ he with he | ⟨y, hy, he⟩
      · exact h.flight e he
      · rw [he]; exact hb y (List.mem_of_mem_take hy)
    · rw [e3]; exact h.dead
    · intro i hi
      rw [htake] at hi
      obtain ⟨y, hy, rfl⟩ := List.mem_map.1 hi
      exact hb y (List.mem_of_mem_take hy)
  · right
    refine ⟨l.map (·.id), (r.take (n - l.length - 1)).map (·.id), ?_, ?_⟩
    · have : q.ready.take n = l ++ x :: r.take (n - l.length - 1) := by
        rw [hr, List.take_append, List.take_of_length_le (by omega)]
        congr 1
        obtain ⟨k, hk⟩ : ∃ k, n - l.length = k + 1 := ⟨n - l.length - 1, by omega⟩
        rw [hk]; rfl
      rw [this, List.map_append, List.map_cons, hx]
    · intro i hi
      obtain ⟨y, hy, rfl⟩ := List.mem_map.1 hi
      exact hb y hy

/-- One request: `A` keeps its place until it is handed out, acknowledged or refused. -/
theorem Ahead.step {vt mr : Nat} {tr : Str} {q : Q} (h : Ahead B A p q) {op : Req} (hack : op ≠ .ack A) (hnack : ∀ reason t, op ≠ .nack A reason t)
    (hpush : ∀ id pl pr t, op = .push id pl pr t → B id → pr ≤ p) :
    (Ahead B A p (Queue.step vt mr tr q op).1 ∧ ∀ i ∈ (Queue.step vt mr tr q op).2.delivered, ¬ B i) ∨
    ∃ l r, (Queue.step vt mr tr q op).2.delivered = l ++ A :: r ∧ ∀ i ∈ l, ¬ B i := by
  cases op with
  | push id pl pr t =>
    left
    obtain ⟨h1, h2⟩ := line_lineUp h.line h.low (z := ⟨id, pl, pr, 0, t⟩) (hpush id pl pr t rfl)
    exact ⟨⟨h1, h2, h.flight, h.dead⟩, by simp [Queue.step, Ans.delivered]⟩
  | pop now =>
    have h1 := h.serveN (now + vt) 1
    have h2 : (Queue.serveN (now + vt) 1 q).1 = (serve (now + vt) q).1.toList ∧ (Queue.serveN (now + vt) 1 q).2 = (serve (now + vt) q).2 := by
      unfold Queue.serveN
      cases hs : serve (now + vt) q with
      | mk o q' => cases o <;> simp [Queue.serveN]
    rw [h2.1, h2.2] at h1
    exact h1
  | consume max now => exact h.serveN (now + vt) max
  | ack id =>
    left
    have hne : id ≠ A := fun e => hack (e ▸ rfl)
    refine ⟨⟨line_filter h.line hne, ?_, ?_, h.dead⟩, by simp [Queue.step, Ans.delivered]⟩
    · intro y hy; exact h.low y (List.mem_filter.1 hy).1
    · intro e he; exact h.flight e (List.mem_filter.1 he).1
  | nack id reason now =>
    left
    have hne : id ≠ A := fun e => hnack reason now (e ▸ rfl)
    refine ⟨?_, by simp [Queue.step, Ans.delivered]⟩
    have hsettle : ∀ x : Item, (B x.id → x.priority ≤ p) → Ahead B A p { settle id q with dead := q.dead ++ [⟨x, now, reason⟩] } := by
      intro x hx
      refine ⟨line_filter h.line hne, fun y hy => h.low y (List.mem_filter.1 hy).1, fun e he => h.flight e (List.mem_filter.1 he).1, ?_⟩
      intro d hd
      rcases List.mem_append.1 hd with hd | hd
      · exact h.dead d hd
      · rw [List.mem_singleton.1 hd]; exact hx
    simp only [Queue.step, fail]
    cases hf : lookupFlight id q with
    | some x =>
      obtain ⟨e, he, hex⟩ := Option.map_eq_some_iff.1 hf
      have hxB : ¬ B x.id := by rw [← hex]; exact h.flight e (List.mem_of_find?_eq_some he)
      dsimp only
      split
      · exact hsettle x (fun hb => absurd hb hxB)
      · obtain ⟨h1, h2⟩ := line_lineUp h.line h.low (z := x) (fun hb => absurd hb hxB)
        exact ⟨h1, h2, fun e he => h.flight e (List.mem_filter.1 he).1, h.dead⟩
    | none =>
      dsimp only
      cases hr : lookupReady id q with
      | none => exact h
      | some x =>
        dsimp only
        split
        · exact hsettle x (h.low x (List.mem_of_find?_eq_some hr))
        · exact h
  | tick now now' =>
    left
    refine ⟨?_, by simp [Queue.step, Ans.delivered]⟩
    simp only [Queue.step]
    split
    · have hd : ∀ z ∈ (q.flight.filter (fun e => e.1 ≤ now')).map (·.2), ¬ B z.id := by
        intro z hz
        obtain ⟨e, he, rfl⟩ := List.mem_map.1 hz
        exact h.flight e (List.mem_filter.1 he).1
      obtain ⟨h1, h2⟩ := line_fold (xs := ((q.flight.filter (fun e => e.1 ≤ now')).map (·.2)).filter (fun x => x.attempts < mr)) h.line h.low
        (fun z hz hb => absurd hb (hd z (List.mem_filter.1 hz).1))
      refine ⟨h1, h2, fun e he => h.flight e (List.mem_filter.1 he).1, ?_⟩
      intro d hd'
      rcases List.mem_append.1 hd' with hd' | hd'
      · exact h.dead d hd'
      · obtain ⟨z, hz, rfl⟩ := List.mem_map.1 hd'
        exact fun hb => absurd hb (hd z (List.mem_filter.1 hz).1)
    · exact h
  | peekDlq limit offset => exact .inl ⟨h, by simp [Queue.step, Ans.delivered]⟩
  | moveToQueue id =>
    left
    refine ⟨?_, by simp [Queue.step, Ans.delivered]⟩
    simp only [Queue.step, replay]
    cases hl : lookupDead id q with
    | none => exact h
    | some d =>
      obtain ⟨h1, h2⟩ := line_lineUp h.line h.low (z := { d.item with attempts := 0 }) (h.dead d (List.mem_of_find?_eq_some hl))
      exact ⟨h1, h2, h.flight, fun d hd => h.dead d (List.mem_filter.1 hd).1⟩
  | deleteDlq id =>
    left
    refine ⟨?_, by simp [Queue.step, Ans.delivered]⟩
    simp only [Queue.step, discard]
    cases hl : lookupDead id q with
    | none => exact h
    | some d => exact ⟨h.line, h.low, h.flight, fun d hd => h.dead d (List.mem_filter.1 hd).1⟩
  | purgeDlq => exact .inl ⟨⟨h.line, h.low, h.flight, by simp [Queue.step]⟩, by simp [Queue.step, Ans.delivered]⟩
  | counters => exact .inl ⟨h, by simp [Queue.step, Ans.delivered]⟩

end Verif.Spec.Queue

namespace Verif.Queue

open Spec.Queue (Q Ahead)

/-- A history: `A` keeps its place until it is handed out, acknowledged or refused. -/
theorem ahead_run {B : Nat → Prop} {A p : Nat} : ∀ (ops : List Op) {q : QInner} {a : Q} {used : List Id}, RQ q a (· ∈ used) → Fresh used ops →
    Ahead B A p a → (Op.ack A ∉ ops) → (∀ reason t, Op.nack A reason t ∉ ops) →
    (∀ id pl pr t, Op.push id pl pr t ∈ ops → B id → pr ≤ p) → (∀ out ∈ (run q ops).2, A ∉ out.delivered) →
    ∃ a', RQ (run q ops).1 a' (· ∈ used ++ pushIds ops) ∧ Ahead B A p a' := by
  intro ops
  induction ops with
  | nil => intro q a used h _ ha _ _ _ _; exact ⟨a, h.mono (by intro i hi; simpa [pushIds] using hi), ha⟩
  | cons op t ih =>
    intro q a used h hf ha h1 h2 h3 h4
    obtain ⟨hok, hnew, hft⟩ := hf.cons
    obtain ⟨s1, s2, s3⟩ := h.stepU hok hnew
    simp only [run] at h4
    have hk := ha.step (vt := q.cfg.visibilityTimeout) (mr := q.cfg.maxRetries) (tr := timeoutReason) (op := op.req)
      (by intro he; cases op <;> simp only [Op.req, reduceCtorEq, Spec.Queue.Req.ack.injEq] at he; subst he; exact h1 (List.mem_cons_self ..))
      (by intro rs tm he; cases op <;> simp only [Op.req, reduceCtorEq, Spec.Queue.Req.nack.injEq] at he
          obtain ⟨rfl, rfl, rfl⟩ := he; exact h2 _ _ (List.mem_cons_self ..))
      (by intro id pl pr tm he; cases op <;> simp only [Op.req, reduceCtorEq, Spec.Queue.Req.push.injEq] at he
          obtain ⟨rfl, rfl, rfl, rfl⟩ := he; exact h3 _ _ _ _ (List.mem_cons_self ..))
    rcases hk with ⟨k1, _⟩ | ⟨l, r, k, _⟩
    · obtain ⟨a', i1, i2⟩ := ih s1 hft k1 (fun hm => h1 (List.mem_cons_of_mem _ hm)) (fun rs tm hm => h2 rs tm (List.mem_cons_of_mem _ hm))
        (fun id pl pr tm hm => h3 id pl pr tm (List.mem_cons_of_mem _ hm)) (fun out ho => h4 out (List.mem_cons_of_mem _ ho))
      exact ⟨a', by rw [pushIds_cons, ← List.append_assoc]; exact i1, i2⟩
    · exfalso
      apply h4 (Verif.Queue.step q op).2.1 (List.mem_cons_self ..)
      rw [s3]
      show A ∈ (Spec.Queue.step _ _ _ a op.req).2.delivered
      rw [k]; simp

end Verif.Queue
