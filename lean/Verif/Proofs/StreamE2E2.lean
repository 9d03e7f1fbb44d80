import Verif.Proofs.StreamE2E

/-! # Deliveries, calls and their order -/

namespace Verif.StreamE2E

open Verif.Stream (Msg Topic GErr)
open Verif.Sdk.StreamLoop (Loop Ev Member inProgress called)
open Verif.QueueE2E (Tok)

variable (crc : Bytes → Nat) (o : Options)

/-! ## The loop -/

/-- The messages no worker has taken yet. -/
def todo (l : Loop) : List Nat :=
  match l.phase with
  | .batch _ t _ _ => t
  | _ => []

/-- The loop waits for an answer. -/
def Asking (l : Loop) : Prop := l.phase = .joining ∨ ∃ c, l.phase = .polling c

theorem Asking.todo {l : Loop} (h : Asking l) : todo l = [] := by
  rcases h with h | ⟨c, h⟩ <;> simp [StreamE2E.todo, h]

/-- What a step of the loop does with the messages of a batch. -/
inductive LMove (l : Loop) (e : Ev) (l' : Loop) (os : List Sdk.StreamLoop.Out) : Prop where
  | bring (ms : List Nat) (c : Member) (he : e = .delivered ms) (hp : l.phase = .polling c) (ht : todo l' = ms) (ho : os = [])
  | call (m : Nat) (he : e = .take) (ho : os = [.call m]) (ht : todo l = m :: todo l')
  | other (ho : called os = []) (ht : (todo l').Sublist (todo l)) (ha : os.any asks = true → Asking l')
      (hk : Asking l → settles e = false → Asking l')

theorem caught_lmove (l : Loop) (again : Bool) (h : todo l = []) (e : Ev) (he : settles e = true ∨ ¬ Asking l) :
    LMove l e (Sdk.StreamLoop.caught l again).1 (Sdk.StreamLoop.caught l again).2 := by
  have hk : ∀ l' : Loop, Asking l → settles e = false → Asking l' := by
    intro l' h1 h2
    rcases he with he | he
    · rw [he] at h2; cases h2
    · exact absurd h1 he
  unfold Sdk.StreamLoop.caught
  split
  · exact .other rfl (by simp [todo]) (by simp [asks]) (hk _)
  · split
    · exact .other rfl (by simp [todo]) (fun _ => .inl rfl) (hk _)
    · exact .other rfl (by simp [todo]) (by simp) (hk _)

theorem lmove (c : Nat) (l : Loop) (e : Ev) : LMove l e (Sdk.StreamLoop.step c l e).1 (Sdk.StreamLoop.step c l e).2 := by
  have same : LMove l e l [] := .other rfl (List.Sublist.refl _) (by simp) (fun h _ => h)
  cases e with
  | go up =>
    simp only [Sdk.StreamLoop.step]
    split
    · next hp =>
      have ht : todo l = [] := by simp [todo, hp]
      have hna : ¬ Asking l := by rintro (h | ⟨c, h⟩) <;> rw [hp] at h <;> cases h
      split
      · exact .other rfl (by simp [todo]) (by simp [asks]) (fun h => absurd h hna)
      split
      · exact caught_lmove l false ht _ (.inr hna)
      · split
        · exact .other rfl (by simp [todo]) (fun _ => .inl rfl) (fun h => absurd h hna)
        · exact .other rfl (by simp [todo]) (fun _ => .inr ⟨_, rfl⟩) (fun h => absurd h hna)
    · exact same
  | joined d =>
    simp only [Sdk.StreamLoop.step]
    split
    · exact .other rfl (by simp [todo]) (fun _ => .inr ⟨_, rfl⟩) (fun _ _ => .inr ⟨_, rfl⟩)
    · exact same
  | joinFailed again =>
    simp only [Sdk.StreamLoop.step]
    split
    · next hp => exact caught_lmove l again (by simp [todo, hp]) _ (.inl rfl)
    · exact same
  | delivered ms =>
    simp only [Sdk.StreamLoop.step]
    split
    · next d hp =>
      refine .bring ms d rfl hp ?_ rfl
      by_cases h : ms = []
      · simp [todo, h]
      · simp [todo, h]
    · exact same
  | fetchFailed again =>
    simp only [Sdk.StreamLoop.step]
    split
    · next hp => exact caught_lmove l again (by simp [todo, hp]) _ (.inl rfl)
    · exact same
  | wake =>
    simp only [Sdk.StreamLoop.step]
    split
    · next hp => exact .other rfl (by simp [todo]) (by simp) (fun h => by rcases h with h | ⟨c, h⟩ <;> rw [hp] at h <;> cases h)
    · exact same
  | take =>
    simp only [Sdk.StreamLoop.step]
    split
    · next d m t r f hp =>
      split
      · exact .call m rfl rfl (by simp [todo, hp])
      · exact .other rfl (by simp [todo, hp]) (by simp) (fun h => by rcases h with h | ⟨c, h⟩ <;> rw [hp] at h <;> cases h)
    · next d r f hp =>
      refine .other rfl ?_ (by simp) (fun h => by rcases h with h | ⟨c, h⟩ <;> rw [hp] at h <;> cases h)
      by_cases h : r = [] ∧ f = 0
      · simp [todo, h]
      · simp [todo, h]
    · exact same
  | returned m ok up =>
    simp only [Sdk.StreamLoop.step]
    split
    · next d t r f hp =>
      split
      · refine .other ?_ (by simp [todo, hp]) ?_ (fun h => by rcases h with h | ⟨c, h⟩ <;> rw [hp] at h <;> cases h)
        · split <;> rfl
        · split <;> simp [asks]
      · exact same
    · exact same
  | stop =>
    refine .other ?_ (List.Sublist.refl _) ?_ (fun h _ => h)
    · simp only [Sdk.StreamLoop.step]; split <;> rfl
    · simp only [Sdk.StreamLoop.step]; split <;> simp [asks]

/-! ## Every delivery is in one place -/

/-- The deliveries an answer carries. -/
def Body.msgs? : Body → List Nat
  | .msgs ms => ms
  | _ => []

/-- The numbers of the deliveries the callback of client `k` is called with in a step. -/
def nosBy (s : Net) (k : Nat) : Event → List Nat
  | .client j e => if j = k then called (Sdk.StreamLoop.step (o.concurrency k) (s.clients k).loop e).2 else []
  | _ => []

def nosOf (k : Nat) (s : Net) : List Event → List Nat
  | [] => []
  | e :: es => nosBy o s k e ++ nosOf k (s.step crc o e) es

theorem nosOf_snoc (k : Nat) (s : Net) (a : List Event) (e : Event) : nosOf crc o k s (a ++ [e]) = nosOf crc o k s a ++ nosBy o (s.run crc o a) k e := by
  induction a generalizing s with
  | nil => simp [nosOf, Net.run]
  | cons x a ih => simp only [List.cons_append, nosOf, ih, List.append_assoc]; rfl

/-- The same for all clients. -/
def nosAll (s : Net) : Event → List Nat
  | .client k e => nosBy o s k (.client k e)
  | _ => []

def nos (s : Net) : List Event → List Nat
  | [] => []
  | e :: es => nosAll o s e ++ nos (s.step crc o e) es

theorem nos_snoc (s : Net) (a : List Event) (e : Event) : nos crc o s (a ++ [e]) = nos crc o s a ++ nosAll o (s.run crc o a) e := by
  induction a generalizing s with
  | nil => simp [nos, Net.run]
  | cons x a ih => simp only [List.cons_append, nos, ih, List.append_assoc]; rfl

def NTok (s : Net) (C : List Nat) : Prop :=
  Tok (s.answers.flatMap (·.body.msgs?)) (fun k => todo (s.clients k).loop) C s.deliveries.length

theorem flatMap_erase {l : List Answer} {i : Nat} {a : Answer} (h : l[i]? = some a) :
    (l.flatMap (·.body.msgs?)).Perm (a.body.msgs? ++ (l.eraseIdx i).flatMap (·.body.msgs?)) := by
  induction l generalizing i with
  | nil => simp at h
  | cons x l ih =>
    cases i with
    | zero =>
      simp only [List.getElem?_cons_zero, Option.some.injEq] at h
      subst h
      simp
    | succ i =>
      simp only [List.getElem?_cons_succ] at h
      simp only [List.flatMap_cons, List.eraseIdx_cons_succ]
      refine ((ih h).append_left x.body.msgs?).trans ?_
      rw [← List.append_assoc, ← List.append_assoc]
      exact List.perm_append_comm.append_right _

theorem flatMap_sub (l : List Answer) (i : Nat) : ((l.eraseIdx i).flatMap (·.body.msgs?)).Sublist (l.flatMap (·.body.msgs?)) := by
  induction l generalizing i with
  | nil => simp
  | cons x l ih =>
    cases i with
    | zero => simp only [List.eraseIdx_cons_zero, List.flatMap_cons]; exact List.sublist_append_right _ _
    | succ i => simp only [List.eraseIdx_cons_succ, List.flatMap_cons]; exact (ih i).append_left _

theorem put_same (f : Nat → Client) (k : Nat) (c : Client) : put f k c k = c := by simp [put]
theorem put_ne (f : Nat → Client) {k j : Nat} (c : Client) (h : j ≠ k) : put f k c j = f j := by simp [put, h]

/-- A step of a loop that brings no messages. -/
theorem NTok.client {s : Net} {C : List Nat} (h : NTok s C) (k : Nat) {e : Ev} (he : ∀ ms c, e = .delivered ms → (s.clients k).loop.phase ≠ .polling c) :
    NTok (clientStep o s k e) (C ++ called (Sdk.StreamLoop.step (o.concurrency k) (s.clients k).loop e).2) := by
  have hm := lmove (o.concurrency k) (s.clients k).loop e
  unfold NTok at h ⊢
  unfold clientStep
  simp only
  generalize (Sdk.StreamLoop.step (o.concurrency k) (s.clients k).loop e).2 = os at hm
  generalize (Sdk.StreamLoop.step (o.concurrency k) (s.clients k).loop e).1 = l at hm
  cases hm with
  | bring ms c hd hp => exact absurd hp (he ms c hd)
  | call m _ ho ht =>
    subst ho
    refine Tok.call h (k := k) (by simpa only [put_same] using ht) ?_
    intro j hj
    simp only [put_ne _ _ hj]
  | other ho ht _ _ =>
    rw [ho, List.append_nil]
    refine Tok.mono h (List.Sublist.refl _) ?_ (Nat.le_refl _)
    intro j
    by_cases hj : j = k
    · subst hj; simpa only [put_same] using ht
    · simp only [put_ne _ _ hj]; exact List.Sublist.refl _

theorem called_answer (c : Nat) (l : Loop) (b : Body) (ok : Bool) : called (Sdk.StreamLoop.step c l (b.ev l ok)).2 = [] := by
  have hm := lmove c l (b.ev l ok)
  generalize (Sdk.StreamLoop.step c l (b.ev l ok)).2 = os at hm
  generalize (Sdk.StreamLoop.step c l (b.ev l ok)).1 = l' at hm
  cases hm with
  | bring ms d hd hp ht ho => rw [ho]; rfl
  | call m he =>
    exfalso
    unfold Body.ev at he
    split at he
    · cases he
    · cases he
    · split at he <;> cases he
    · split at he <;> cases he
  | other ho => exact ho

theorem body_delivered {l : Loop} {b : Body} {ok : Bool} {ms : List Nat} (h : b.ev l ok = .delivered ms) : b = .msgs ms := by
  unfold Body.ev at h
  split at h
  · cases h
  · cases h; rfl
  · split at h <;> cases h
  · split at h <;> cases h

theorem NTok.answer {s : Net} {C : List Nat} (h : NTok s C) (k no : Nat) (x : Except GErr (List Msg)) : NTok (answerFetch s k no x) C := by
  unfold NTok at h ⊢
  cases x with
  | ok ms =>
    simp only [answerFetch, List.flatMap_append, List.flatMap_cons, List.flatMap_nil, List.append_nil, List.length_append]
    exact Tok.hand h _
  | error e =>
    simp only [answerFetch, List.flatMap_append, List.flatMap_cons, List.flatMap_nil, Body.msgs?, List.append_nil]
    exact h

theorem NTok.step {s : Net} {C : List Nat} (h : NTok s C) (e : Event) : NTok (s.step crc o e) (C ++ nosAll o s e) := by
  cases e with
  | client k e =>
    simp only [nosAll, nosBy, if_true]
    by_cases hp : plain e
    · rw [step_client crc o s k hp]
      exact h.client o k (fun ms c hd => by subst hd; exact hp.elim)
    · rw [step_not_client crc o s k hp]
      have : called (Sdk.StreamLoop.step (o.concurrency k) (s.clients k).loop e).2 = [] := by
        cases e with
        | delivered ms => simp only [Sdk.StreamLoop.step]; split <;> rfl
        | joined c => simp only [Sdk.StreamLoop.step]; split <;> rfl
        | _ => exact absurd trivial hp
      rw [this, List.append_nil]; exact h
  | exec i conn c order =>
    simp only [Net.step, nosAll, List.append_nil]
    cases s.requests[i]? with
    | none => exact h
    | some q =>
      have hx := execStep_cases crc o { s with requests := s.requests.eraseIdx i } q conn c order
      show NTok (execStep crc o { s with requests := s.requests.eraseIdx i } q conn c order) C
      generalize execStep crc o { s with requests := s.requests.eraseIdx i } q conn c order = s' at hx
      unfold NTok at h ⊢
      cases hx with
      | join => simp only [List.flatMap_append, List.flatMap_cons, List.flatMap_nil, Body.msgs?, List.append_nil]; exact h
      | refused => simp only [List.flatMap_append, List.flatMap_cons, List.flatMap_nil, Body.msgs?, List.append_nil]; exact h
      | start => exact h
      | ack => exact h
      | leave => exact h
  | loseRequest i => simp only [nosAll, List.append_nil]; exact h
  | loseAnswer i =>
    simp only [nosAll, List.append_nil]
    exact Tok.mono h (flatMap_sub _ _) (fun k => List.Sublist.refl _) (Nat.le_refl _)
  | server x =>
    simp only [nosAll, List.append_nil, Net.step]
    have hx := serverStep_cases crc s x
    generalize serverStep crc s x = s' at hx
    cases hx with
    | silent => exact h
    | answer id k no q x he hx hw => exact NTok.answer (s := { s with topic := (s.topic.step crc _).1, working := mdel s.working id }) h k no x
  | receive i ok =>
    simp only [Net.step, nosAll, List.append_nil]
    cases ha : s.answers[i]? with
    | none => exact h
    | some a =>
      have hsub : NTok { s with answers := s.answers.eraseIdx i } C := Tok.mono h (flatMap_sub _ _) (fun k => List.Sublist.refl _) (Nat.le_refl _)
      simp only [receiveStep]
      split
      · by_cases hb : ∃ ms c, a.body.ev (s.clients a.k).loop ok = .delivered ms ∧ (s.clients a.k).loop.phase = .polling c
        · obtain ⟨ms, c, hd, hp⟩ := hb
          have hbm := body_delivered hd
          have hm := lmove (o.concurrency a.k) (s.clients a.k).loop (a.body.ev (s.clients a.k).loop ok)
          have ht : todo (s.clients a.k).loop = [] := by simp [todo, hp]
          have ht' : todo (Sdk.StreamLoop.step (o.concurrency a.k) (s.clients a.k).loop (a.body.ev (s.clients a.k).loop ok)).1 = ms := by
            rw [hd]
            simp only [Sdk.StreamLoop.step, hp]
            by_cases h : ms = []
            · simp [todo, h]
            · simp [todo, h]
          have hA := flatMap_erase ha
          rw [hbm] at hA
          refine Tok.arrive h (k := a.k) hA ht ?_ ?_
          · simp only [clientStep, put_same]; exact ht'
          · intro j hj
            simp only [clientStep, put_ne _ _ hj]
        · have := hsub.client o a.k (e := a.body.ev (s.clients a.k).loop ok) (fun ms c h1 h2 => hb ⟨ms, c, h1, h2⟩)
          rw [called_answer, List.append_nil] at this
          exact this
      · exact hsub

theorem NTok.run (t : Topic) (es : List Event) : NTok ((Net.new t).run crc o es) (nos crc o (Net.new t) es) := by
  induction es using Verif.Sdk.snoc_ind with
  | h0 => exact ⟨List.nodup_nil, fun _ => List.nodup_nil, fun _ _ _ _ h => (nomatch h), fun _ _ h => (nomatch h), List.nodup_nil, fun _ h => (nomatch h),
      fun _ h => (nomatch h), fun _ h => (nomatch h), fun _ _ h => (nomatch h), fun _ h => (nomatch h)⟩
  | h1 es e ih => rw [run_snoc, nos_snoc]; exact ih.step crc o e

/-! ## A client gets its messages in the order in which they are handed out -/

/-- The numbers of the requests. -/
def Request.no? : Request → List Nat
  | .join _ no => [no]
  | .fetch _ no _ _ => [no]
  | _ => []

structure Ord (s : Net) (k : Nat) (C : List Nat) : Prop where
  sorted : (C ++ todo (s.clients k).loop).Pairwise (· < ·)
  below : ∀ m ∈ C ++ todo (s.clients k).loop, m < s.deliveries.length
  asking : ∀ n, (s.clients k).waiting = some n → Asking (s.clients k).loop ∧ n < s.nextNo
  answers : ∀ a ∈ s.answers, a.no < s.nextNo
  working : ∀ id j no, mget s.working id = some (j, no) → no < s.nextNo
  requests : ∀ q ∈ s.requests, ∀ no ∈ q.no?, no < s.nextNo
  fresh : ∀ a ∈ s.answers, a.k = k → (s.clients k).waiting = some a.no →
    a.body.msgs?.Pairwise (· < ·) ∧ (∀ m ∈ C, ∀ x ∈ a.body.msgs?, m < x) ∧ ∀ x ∈ a.body.msgs?, x < s.deliveries.length

theorem sends_no {ids : List Str} {d : List Msg} {k n : Nat} {x : Sdk.StreamLoop.Out} {q : Request} (h : q ∈ sends ids d k n x) : ∀ no ∈ q.no?, no = n := by
  cases x with
  | join => simp [sends] at h; subst h; simp [Request.no?]
  | fetch c =>
    simp only [sends, List.mem_map] at h
    obtain ⟨y, _, h⟩ := h
    subst h; simp [Request.no?]
  | ack c m =>
    simp only [sends, List.mem_flatMap, List.mem_map] at h
    obtain ⟨y, _, z, _, h⟩ := h
    subst h; simp [Request.no?]
  | leave c =>
    simp only [sends, List.mem_map] at h
    obtain ⟨y, _, h⟩ := h
    subst h; simp [Request.no?]
  | call => simp [sends] at h
  | finished => simp [sends] at h

/-- A step of client `j`; if `j = k` is waiting for a batch that arrives, `ms` is the batch. -/
theorem Ord.client {s : Net} {k : Nat} {C : List Nat} (h : Ord s k C) (j : Nat) {e : Ev}
    (he : j = k → ∀ ms c, e = .delivered ms → (s.clients k).loop.phase = .polling c →
      (C ++ ms).Pairwise (· < ·) ∧ ∀ x ∈ ms, x < s.deliveries.length) :
    Ord (clientStep o s j e) k (C ++ (if j = k then called (Sdk.StreamLoop.step (o.concurrency k) (s.clients k).loop e).2 else [])) := by
  have hreq : ∀ q ∈ (clientStep o s j e).requests, ∀ no ∈ q.no?, no < s.nextNo + 1 := by
    intro q hq no hno
    rcases List.mem_append.1 hq with hq | hq
    · exact Nat.lt_succ_of_lt (h.requests q hq no hno)
    · obtain ⟨x, _, hx⟩ := List.mem_flatMap.1 hq
      rw [sends_no hx no hno]; exact Nat.lt_succ_self _
  by_cases hj : j = k
  · subst hj
    simp only [if_true]
    have hm := lmove (o.concurrency j) (s.clients j).loop e
    have hmono : ∀ (os : List Sdk.StreamLoop.Out) (n : Nat), (if os.any asks then some s.nextNo else if settles e then none else (s.clients j).waiting) = some n →
        os.any asks = true ∧ n = s.nextNo ∨ os.any asks = false ∧ settles e = false ∧ (s.clients j).waiting = some n := by
      intro os n hn
      split at hn
      · next ha => cases hn; exact .inl ⟨ha, rfl⟩
      · next ha =>
        split at hn
        · cases hn
        · next hs => exact .inr ⟨by simpa using ha, by simpa using hs, hn⟩
    unfold clientStep at hreq ⊢
    simp only at hreq ⊢
    generalize (Sdk.StreamLoop.step (o.concurrency j) (s.clients j).loop e).2 = os at hm hreq ⊢
    generalize (Sdk.StreamLoop.step (o.concurrency j) (s.clients j).loop e).1 = l at hm hreq ⊢
    cases hm with
    | bring ms c hd hp ht ho =>
      obtain ⟨h1, h2⟩ := he rfl ms c hd hp
      subst ho
      have hset : settles e = true := by rw [hd]; rfl
      refine ⟨?_, ?_, ?_, fun a ha => Nat.lt_succ_of_lt (h.answers a ha), fun id i no hw => Nat.lt_succ_of_lt (h.working id i no hw), hreq, ?_⟩
      · simp only [put_same, called, List.append_nil, ht]; exact h1
      · intro m hm
        simp only [put_same, called, List.append_nil, ht] at hm
        rcases List.mem_append.1 hm with hm | hm
        · exact h.below m (List.mem_append_left _ hm)
        · exact h2 m hm
      · intro n hn
        simp [put_same, hset] at hn
      · intro a ha hk hn
        simp [put_same, hset] at hn
    | call m hd ho ht =>
      subst ho
      have hna : ∀ n, (s.clients j).waiting ≠ some n := by
        intro n hn
        have := (h.asking n hn).1.todo
        rw [this] at ht; cases ht
      have hset : settles e = false := by rw [hd]; rfl
      refine ⟨?_, ?_, ?_, fun a ha => Nat.lt_succ_of_lt (h.answers a ha), fun id i no hw => Nat.lt_succ_of_lt (h.working id i no hw), hreq, ?_⟩
      · simp only [put_same, called, List.append_assoc, List.singleton_append]
        rw [← ht]; exact h.sorted
      · simp only [put_same, called, List.append_assoc, List.singleton_append]
        rw [← ht]; exact h.below
      · intro n hn
        simp [put_same, hset, asks] at hn
        exact absurd hn (hna n)
      · intro a ha hk hn
        simp [put_same, hset, asks] at hn
        exact absurd hn (hna _)
    | other ho ht ha hk =>
      rw [ho, List.append_nil]
      refine ⟨?_, ?_, ?_, fun a ha => Nat.lt_succ_of_lt (h.answers a ha), fun id i no hw => Nat.lt_succ_of_lt (h.working id i no hw), hreq, ?_⟩
      · simp only [put_same]; exact h.sorted.sublist ((List.Sublist.refl _).append ht)
      · simp only [put_same]; exact fun m hm => h.below m (((List.Sublist.refl _).append ht).subset hm)
      · intro n hn
        simp only [put_same] at hn ⊢
        rcases hmono os n hn with ⟨h1, h2⟩ | ⟨_, h1, h2⟩
        · exact ⟨ha h1, by rw [h2]; exact Nat.lt_succ_self _⟩
        · exact ⟨hk (h.asking n h2).1 h1, Nat.lt_succ_of_lt (h.asking n h2).2⟩
      · intro a haa hkk hn
        simp only [put_same] at hn
        rcases hmono os _ hn with ⟨h1, h2⟩ | ⟨_, h1, h2⟩
        · exact absurd (h.answers a haa) (by rw [h2]; exact Nat.lt_irrefl _)
        · exact h.fresh a haa hkk h2
  · have hkj : k ≠ j := fun hh => hj hh.symm
    simp only [if_neg hj, List.append_nil]
    unfold clientStep at hreq ⊢
    simp only at hreq ⊢
    refine ⟨?_, ?_, ?_, fun a ha => Nat.lt_succ_of_lt (h.answers a ha), fun id i no hw => Nat.lt_succ_of_lt (h.working id i no hw), hreq, ?_⟩
    · simp only [put_ne _ _ hkj]; exact h.sorted
    · simp only [put_ne _ _ hkj]; exact h.below
    · simp only [put_ne _ _ hkj]; exact fun n hn => ⟨(h.asking n hn).1, Nat.lt_succ_of_lt (h.asking n hn).2⟩
    · simp only [put_ne _ _ hkj]; exact h.fresh

theorem Ord.answer {s : Net} {k : Nat} {C : List Nat} (h : Ord s k C) {j no : Nat} (hno : no < s.nextNo) (x : Except GErr (List Msg)) :
    Ord (answerFetch s j no x) k C := by
  cases x with
  | error e =>
    refine { h with answers := ?_, fresh := ?_ }
    · intro a ha
      rcases List.mem_append.1 ha with ha | ha
      · exact h.answers a ha
      · rw [List.mem_singleton.1 ha]; exact hno
    · intro a ha
      rcases List.mem_append.1 ha with ha | ha
      · exact h.fresh a ha
      · rw [List.mem_singleton.1 ha]
        intro _ _
        exact ⟨List.Pairwise.nil, fun _ _ _ h => (nomatch h), fun _ h => (nomatch h)⟩
  | ok ms =>
    have hlen : s.deliveries.length ≤ (s.deliveries ++ ms).length := by simp
    refine { h with answers := ?_, fresh := ?_, below := fun m hm => Nat.lt_of_lt_of_le (h.below m hm) hlen }
    · intro a ha
      rcases List.mem_append.1 ha with ha | ha
      · exact h.answers a ha
      · rw [List.mem_singleton.1 ha]; exact hno
    · intro a ha
      rcases List.mem_append.1 ha with ha | ha
      · intro h1 h2
        obtain ⟨a1, a2, a3⟩ := h.fresh a ha h1 h2
        exact ⟨a1, a2, fun x hx => Nat.lt_of_lt_of_le (a3 x hx) hlen⟩
      · rw [List.mem_singleton.1 ha]
        intro _ _
        refine ⟨List.pairwise_lt_range', ?_, ?_⟩
        · intro m hm x hx
          have := h.below m (List.mem_append_left _ hm)
          have := List.mem_range'.1 hx
          omega
        · intro x hx
          have hx : x ∈ List.range' s.deliveries.length ms.length := hx
          have := List.mem_range'.1 hx
          show x < (s.deliveries ++ ms).length
          rw [List.length_append]
          omega

theorem Ord.step {s : Net} {k : Nat} {C : List Nat} (h : Ord s k C) (e : Event) : Ord (s.step crc o e) k (C ++ nosBy o s k e) := by
  cases e with
  | client j e =>
    by_cases hp : plain e
    · rw [step_client crc o s j hp]
      exact h.client o j (fun _ ms c hd => by subst hd; exact hp.elim)
    · rw [step_not_client crc o s j hp]
      have : nosBy o s k (.client j e) = [] := by
        simp only [nosBy]
        split
        · cases e with
          | delivered ms => simp only [Sdk.StreamLoop.step]; split <;> rfl
          | joined c => simp only [Sdk.StreamLoop.step]; split <;> rfl
          | _ => exact absurd trivial hp
        · rfl
      rw [this, List.append_nil]; exact h
  | exec i conn c order =>
    simp only [Net.step, nosBy, List.append_nil]
    cases hq : s.requests[i]? with
    | none => exact h
    | some q =>
      have h' : Ord { s with requests := s.requests.eraseIdx i } k C :=
        { h with requests := fun q hq => h.requests q (List.mem_of_mem_eraseIdx hq) }
      have hqn := h.requests q (List.mem_of_getElem? hq)
      have hx := execStep_cases crc o { s with requests := s.requests.eraseIdx i } q conn c order
      show Ord (execStep crc o { s with requests := s.requests.eraseIdx i } q conn c order) k C
      generalize execStep crc o { s with requests := s.requests.eraseIdx i } q conn c order = s' at hx
      have ans : ∀ {t : Topic} {ids : List Str} {j no : Nat} {b : Body}, no < s.nextNo → b.msgs? = [] →
          Ord { s with requests := s.requests.eraseIdx i, topic := t, ids := ids, answers := s.answers ++ [{ k := j, no, body := b }] } k C := by
        intro t ids j no b hno hb
        refine { h' with answers := ?_, fresh := ?_ }
        · intro a ha
          rcases List.mem_append.1 ha with ha | ha
          · exact h.answers a ha
          · rw [List.mem_singleton.1 ha]; exact hno
        · intro a ha
          rcases List.mem_append.1 ha with ha | ha
          · exact h.fresh a ha
          · rw [List.mem_singleton.1 ha]
            intro _ _
            simp only [hb]
            exact ⟨List.Pairwise.nil, fun _ _ _ h => (nomatch h), fun _ h => (nomatch h)⟩
      cases hx with
      | join j no => exact ans (hqn no (by simp [Request.no?])) rfl
      | refused j no => exact ans (hqn no (by simp [Request.no?])) rfl
      | start j no =>
        refine { h' with working := ?_ }
        intro id i no' hw
        simp only [mget_mset] at hw
        split at hw
        · cases hw; exact hqn no (by simp [Request.no?])
        · exact h.working id i no' hw
      | ack => exact { h' with }
      | leave => exact { h' with }
  | loseRequest i =>
    simp only [nosBy, List.append_nil]
    exact { h with requests := fun q hq => h.requests q (List.mem_of_mem_eraseIdx hq) }
  | loseAnswer i =>
    simp only [nosBy, List.append_nil]
    exact { h with answers := fun a ha => h.answers a (List.mem_of_mem_eraseIdx ha), fresh := fun a ha => h.fresh a (List.mem_of_mem_eraseIdx ha) }
  | server x =>
    simp only [nosBy, List.append_nil, Net.step]
    have hx := serverStep_cases crc s x
    generalize serverStep crc s x = s' at hx
    cases hx with
    | silent => exact { h with }
    | answer id j no q x he hx hw =>
      refine Ord.answer (s := { s with topic := (s.topic.step crc _).1, working := mdel s.working id }) ?_ (h.working id j no hw) x
      refine { h with working := ?_ }
      intro i a b hi
      simp only [mget_mdel] at hi
      split at hi
      · cases hi
      · exact h.working i a b hi
  | receive i ok =>
    simp only [Net.step, nosBy, List.append_nil]
    cases ha : s.answers[i]? with
    | none => exact h
    | some a =>
      have h' : Ord { s with answers := s.answers.eraseIdx i } k C :=
        { h with answers := fun a ha => h.answers a (List.mem_of_mem_eraseIdx ha), fresh := fun a ha => h.fresh a (List.mem_of_mem_eraseIdx ha) }
      simp only [receiveStep]
      split
      · next hw =>
        have := h'.client o a.k (e := a.body.ev (s.clients a.k).loop ok) (by
          intro hk ms c hd hp
          have hb := body_delivered hd
          obtain ⟨a1, a2, a3⟩ := h.fresh a (List.mem_of_getElem? ha) hk (by rw [← hk]; exact hw)
          rw [hb] at a1 a2 a3
          have hs := h.sorted
          have hpol : todo (s.clients k).loop = [] := by simp [todo, show (s.clients k).loop.phase = .polling c from hp]
          rw [hpol, List.append_nil] at hs
          exact ⟨List.pairwise_append.2 ⟨hs, a1, a2⟩, a3⟩)
        have hc : (if a.k = k then called (Sdk.StreamLoop.step (o.concurrency k) (s.clients k).loop (a.body.ev (s.clients a.k).loop ok)).2 else []) = [] := by
          split
          · next hk => rw [hk]; exact called_answer _ _ _ _
          · rfl
        simp only [hc, List.append_nil] at this
        exact this
      · exact h'

theorem Ord.run (t : Topic) (k : Nat) (es : List Event) : Ord ((Net.new t).run crc o es) k (nosOf crc o k (Net.new t) es) := by
  induction es using Verif.Sdk.snoc_ind with
  | h0 => exact ⟨List.Pairwise.nil, fun _ h => (nomatch h), fun _ h => (nomatch h), fun _ h => (nomatch h), fun _ _ _ h => (nomatch h), fun _ h => (nomatch h),
      fun _ h => (nomatch h)⟩
  | h1 es e ih => rw [run_snoc, nosOf_snoc]; exact ih.step crc o e

end Verif.StreamE2E
