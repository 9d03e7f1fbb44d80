import Verif.Proofs.QueueTurns
import Verif.Proofs.QueueE2E
import Verif.Spec.QueueTurns

/-! # The callbacks of a client are called in the order of the deliveries, and these are in the order of the pushes (C132) -/

namespace Verif.QueueE2E

open Verif.Queue (Id Msg Config Sys Op RQ)
open Verif.Sdk.QueueLoop (Loop Ev todo inProgress)
open Verif.Spec.Queue (Before Fifo)

variable (o : Options)

theorem callsOf_snoc (k : Nat) (s : Net) (a : List Event) (e : Event) : callsOf o k s (a ++ [e]) = callsOf o k s a ++ callsByOf o k (s.run o a) e := by
  induction a generalizing s with
  | nil => simp [callsOf, Net.run]
  | cons x a ih => simp only [List.cons_append, callsOf, ih, List.append_assoc]; rfl

theorem handedOut_snoc (s : Net) (a : List Event) (e : Event) : handedOut o s (a ++ [e]) = handedOut o s a ++ handsOut o (s.run o a) e := by
  induction a generalizing s with
  | nil => simp [handedOut, Net.run]
  | cons x a ih => simp only [List.cons_append, handedOut, ih, List.append_assoc]; rfl

/-! ## The order of the deliveries of one client -/

/-- The numbers of the deliveries the callback of client `k` is called with in a step. -/
def nosByOf (k : Nat) (s : Net) : Event → List Nat
  | .client j e r => if j = k then nosBy o s (.client j e r) else []
  | _ => []

def nosOf (k : Nat) (s : Net) : List Event → List Nat
  | [] => []
  | e :: es => nosByOf o k s e ++ nosOf k (s.step o e) es

theorem nosOf_snoc (k : Nat) (s : Net) (a : List Event) (e : Event) : nosOf o k s (a ++ [e]) = nosOf o k s a ++ nosByOf o k (s.run o a) e := by
  induction a generalizing s with
  | nil => simp [nosOf, Net.run]
  | cons x a ih => simp only [List.cons_append, nosOf, ih, List.append_assoc]; rfl

structure Ord (s : Net) (k : Nat) (C : List Nat) : Prop where
  sorted : (C ++ todo (s.clients k).loop).Pairwise (· < ·)
  below : ∀ m ∈ C ++ todo (s.clients k).loop, m < s.deliveries.length
  asking : ∀ n, (s.clients k).waiting = some n → (s.clients k).loop.phase = .polling ∧ n < s.nextNo
  answers : ∀ a ∈ s.answers, a.no < s.nextNo
  requests : ∀ j no, .consume j no ∈ s.requests → no < s.nextNo
  fresh : ∀ a ∈ s.answers, a.k = k → (s.clients k).waiting = some a.no →
    a.msgs.Pairwise (· < ·) ∧ (∀ m ∈ C, ∀ x ∈ a.msgs, m < x) ∧ ∀ x ∈ a.msgs, x < s.deliveries.length

theorem polling_todo {l : Loop} (h : l.phase = .polling) : todo l = [] := by simp [todo, h]

/-- What a step of a loop does to a loop that waits for an answer. -/
theorem polling_kept (c : Nat) {l : Loop} (h : l.phase = .polling) {e : Ev} (h1 : e ≠ .failed) (h2 : ∀ ms, e ≠ .delivered ms) :
    (Sdk.QueueLoop.step c l e).1.phase = .polling := by
  cases e with
  | failed => exact absurd rfl h1
  | delivered ms => exact absurd rfl (h2 ms)
  | _ => simp [Sdk.QueueLoop.step, h]

theorem consume_polling (c : Nat) {l : Loop} {e : Ev} (h : (Sdk.QueueLoop.step c l e).2 = [.consume]) :
    (Sdk.QueueLoop.step c l e).1.phase = .polling := by
  obtain ⟨act, ph⟩ := l
  cases e with
  | poll up => cases ph <;> cases act <;> cases up <;> first | rfl | (simp [Sdk.QueueLoop.step] at h; done)
  | delivered ms => cases ph <;> simp [Sdk.QueueLoop.step] at h
  | failed => cases ph <;> cases act <;> simp [Sdk.QueueLoop.step] at h
  | wake => cases ph <;> simp [Sdk.QueueLoop.step] at h
  | take up =>
    cases ph with
    | batch t r f =>
      cases f with
      | zero => cases t <;> simp [Sdk.QueueLoop.step] at h
      | succ f => cases t <;> cases act <;> cases up <;> simp [Sdk.QueueLoop.step] at h
    | _ => simp [Sdk.QueueLoop.step] at h
  | returned m ok up =>
    cases ph with
    | batch t r f =>
      simp only [Sdk.QueueLoop.step] at h
      split at h <;> cases up <;> cases ok <;> simp at h
    | _ => simp [Sdk.QueueLoop.step] at h
  | stop => simp [Sdk.QueueLoop.step] at h

theorem Ord.client {s : Net} {k : Nat} {C : List Nat} (h : Ord s k C) (j : Nat) {e : Ev} (r : Str) (he : ∀ ms, e ≠ .delivered ms) :
    Ord (clientStep o s j e r) k (C ++ if j = k then Sdk.QueueLoop.called (Sdk.QueueLoop.step (o.concurrency j) (s.clients j).loop e).2 else []) := by
  have hreq : ∀ i no, .consume i no ∈ (clientStep o s j e r).requests → no < s.nextNo + 1 := by
    intro i no hq
    rcases List.mem_append.1 hq with hq | hq
    · exact Nat.lt_succ_of_lt (h.requests i no hq)
    · obtain ⟨x, _, hx⟩ := List.mem_flatMap.1 hq
      cases x with
      | consume =>
        simp only [sends, List.mem_singleton, Request.consume.injEq] at hx
        omega
      | ack m => simp [sends] at hx
      | nack m => simp [sends] at hx
      | call => simp [sends] at hx
      | finished => simp [sends] at hx
  have hans : ∀ a ∈ s.answers, a.no < s.nextNo + 1 := fun a ha => Nat.lt_succ_of_lt (h.answers a ha)
  by_cases hj : j = k
  · subst hj
    rw [if_pos rfl]
    have hm := Sdk.QueueLoop.move (o.concurrency j) (s.clients j).loop e
    have hkeep := fun hp hf => polling_kept (o.concurrency j) (l := (s.clients j).loop) hp (e := e) hf he
    have hcons := consume_polling (o.concurrency j) (l := (s.clients j).loop) (e := e)
    unfold clientStep at hreq ⊢
    simp only at hreq ⊢
    generalize (Sdk.QueueLoop.step (o.concurrency j) (s.clients j).loop e).2 = os at hm hreq hcons ⊢
    generalize (Sdk.QueueLoop.step (o.concurrency j) (s.clients j).loop e).1 = l at hm hreq hkeep hcons ⊢
    have hw : ∀ n, (if os = [.consume] then some s.nextNo else if e = .failed then none else (s.clients j).waiting) = some n →
        (os = [.consume] ∧ n = s.nextNo) ∨ (e ≠ .failed ∧ (s.clients j).waiting = some n) := by
      intro n hn
      split at hn
      · next ha => cases hn; exact .inl ⟨ha, rfl⟩
      · split at hn
        · cases hn
        · next hs => exact .inr ⟨hs, hn⟩
    have key : (C ++ Sdk.QueueLoop.called os ++ todo l).Sublist (C ++ todo (s.clients j).loop) ∧
        ((s.clients j).loop.phase = .polling → Sdk.QueueLoop.called os = []) := by
      have nocall : Sdk.QueueLoop.called os = [] → (todo l).Sublist (todo (s.clients j).loop) →
          (C ++ Sdk.QueueLoop.called os ++ todo l).Sublist (C ++ todo (s.clients j).loop) ∧
          ((s.clients j).loop.phase = .polling → Sdk.QueueLoop.called os = []) := by
        intro h1 h2
        rw [h1, List.append_nil]
        exact ⟨(List.Sublist.refl _).append h2, fun _ => rfl⟩
      cases hm with
      | bring ms _ hs hp h1 h2 h3 => exact absurd rfl (he ms)
      | call m up _ ha h1 h2 h3 =>
        simp only [Sdk.QueueLoop.called]
        rw [h1, List.append_assoc]
        refine ⟨List.Sublist.refl _, fun hp => ?_⟩
        rw [polling_todo hp] at h1; cases h1
      | skip m up _ ha h1 h2 h3 => exact nocall (by cases up <;> rfl) (by rw [h1]; exact List.sublist_cons_self _ _)
      | ret m ok up _ hm h1 h2 h3 => exact nocall (by cases up <;> cases ok <;> rfl) (by rw [h1]; exact List.Sublist.refl _)
      | other _ _ _ hb h1 h2 h3 h4 =>
        exact nocall (by rcases h3 with h3 | ⟨h3, _⟩ | ⟨h3, _⟩ <;> rw [h3] <;> rfl) (by rw [h1]; exact List.Sublist.refl _)
    refine ⟨?_, ?_, ?_, hans, hreq, ?_⟩
    · simp only [put_same]; exact h.sorted.sublist key.1
    · simp only [put_same]; exact fun m hm => h.below m (key.1.subset hm)
    · intro n hn
      simp only [put_same] at hn ⊢
      rcases hw n hn with ⟨h1, h2⟩ | ⟨h1, h2⟩
      · exact ⟨hcons h1, by omega⟩
      · have := h.asking n h2
        exact ⟨hkeep this.1 h1, Nat.lt_succ_of_lt this.2⟩
    · intro a ha hk hn
      simp only [put_same] at hn
      rcases hw _ hn with ⟨h1, h2⟩ | ⟨h1, h2⟩
      · exact absurd (h.answers a ha) (by rw [h2]; exact Nat.lt_irrefl _)
      · rw [key.2 (h.asking _ h2).1, List.append_nil]
        exact h.fresh a ha hk h2
  · have hkj : k ≠ j := fun hh => hj hh.symm
    rw [if_neg hj, List.append_nil]
    unfold clientStep at hreq ⊢
    simp only at hreq ⊢
    refine ⟨?_, ?_, ?_, hans, hreq, ?_⟩
    · simp only [put_ne _ _ hkj]; exact h.sorted
    · simp only [put_ne _ _ hkj]; exact h.below
    · simp only [put_ne _ _ hkj]; exact fun n hn => ⟨(h.asking n hn).1, Nat.lt_succ_of_lt (h.asking n hn).2⟩
    · simp only [put_ne _ _ hkj]; exact h.fresh

theorem Ord.fewer {s : Net} {k : Nat} {C : List Nat} (h : Ord s k C) (i : Nat) : Ord { s with answers := s.answers.eraseIdx i } k C :=
  { h with answers := fun a ha => h.answers a (List.mem_of_mem_eraseIdx ha), fresh := fun a ha => h.fresh a (List.mem_of_mem_eraseIdx ha) }

theorem Ord.fewerR {s : Net} {k : Nat} {C : List Nat} (h : Ord s k C) (i : Nat) : Ord { s with requests := s.requests.eraseIdx i } k C :=
  { h with requests := fun j no hq => h.requests j no (List.mem_of_mem_eraseIdx hq) }

theorem Ord.step {s : Net} {k : Nat} {C : List Nat} (h : Ord s k C) (e : Event) : Ord (s.step o e) k (C ++ nosByOf o k s e) := by
  cases e with
  | client j e r =>
    by_cases hd : ∃ ms, e = .delivered ms
    · obtain ⟨ms, rfl⟩ := hd
      have : nosByOf o k s (.client j (.delivered ms) r) = [] := by simp [nosByOf, nosBy]
      rw [this, List.append_nil]; exact h
    · have hd : ∀ ms, e ≠ .delivered ms := fun ms hm => hd ⟨ms, hm⟩
      rw [step_client o s j hd]
      have : nosByOf o k s (.client j e r) = if j = k then Sdk.QueueLoop.called (Sdk.QueueLoop.step (o.concurrency j) (s.clients j).loop e).2 else [] := by
        simp only [nosByOf]
        congr 1
        cases e <;> first | rfl | exact absurd rfl (hd _)
      rw [this]
      exact h.client o j r hd
  | exec i now =>
    simp only [nosByOf, List.append_nil, Net.step]
    cases hq : s.requests[i]? with
    | none => exact h
    | some q =>
      have hmem := List.mem_of_getElem? hq
      have h' := h.fewerR i
      cases q with
      | ack => exact { h' with }
      | nack => exact { h' with }
      | consume j no =>
        simp only [execStep]
        generalize handed _ = hd
        have hno := h.requests j no hmem
        refine ⟨h'.sorted, ?_, h'.asking, ?_, h'.requests, ?_⟩
        · intro m hm
          have := h'.below m hm
          simp only [List.length_append] at this ⊢
          omega
        · intro a ha
          rcases List.mem_append.1 ha with ha | ha
          · exact h.answers a ha
          · rw [List.mem_singleton.1 ha]; exact hno
        · intro a ha hk hw
          rcases List.mem_append.1 ha with ha | ha
          · obtain ⟨h1, h2, h3⟩ := h.fresh a ha hk hw
            refine ⟨h1, h2, fun x hx => ?_⟩
            have := h3 x hx
            simp only [List.length_append]
            omega
          · rw [List.mem_singleton.1 ha]
            refine ⟨List.pairwise_lt_range', ?_, ?_⟩
            · intro m hm x hx
              have h1 := h.below m (List.mem_append_left _ hm)
              have h2 := (List.mem_range'_1.1 hx).1
              omega
            · intro x hx
              have h2 := (List.mem_range'_1.1 hx).2
              simp only [List.length_append]
              omega
  | loseRequest i => simp only [nosByOf, List.append_nil]; exact h.fewerR i
  | loseAnswer i => simp only [nosByOf, List.append_nil]; exact h.fewer i
  | op x => simp only [nosByOf, List.append_nil]; exact { h with }
  | commit n => simp only [nosByOf, List.append_nil]; exact { h with }
  | restart n => simp only [nosByOf, List.append_nil]; exact { h with }
  | receive i ok =>
    simp only [nosByOf, List.append_nil, Net.step]
    cases ha : s.answers[i]? with
    | none => exact h
    | some a =>
      have hmem := List.mem_of_getElem? ha
      have h' := h.fewer i
      simp only [receiveStep]
      split
      · next hw =>
        by_cases hk : a.k = k
        · have hw' : (s.clients k).waiting = some a.no := by rw [← hk]; exact hw
          have hp := (h.asking _ hw').1
          have ht := polling_todo hp
          obtain ⟨f1, f2, f3⟩ := h.fresh a hmem hk hw'
          have hC : C.Pairwise (· < ·) := (List.pairwise_append.1 h.sorted).1
          subst hk
          have fin : ∀ l : Loop, (todo l = a.msgs ∨ todo l = []) →
              Ord { s with answers := s.answers.eraseIdx i, clients := put s.clients a.k { loop := l, waiting := none } } a.k C := by
            intro l hl
            refine ⟨?_, ?_, ?_, h'.answers, h'.requests, ?_⟩
            · simp only [put_same]
              rcases hl with hl | hl
              · rw [hl]; exact List.pairwise_append.2 ⟨hC, f1, f2⟩
              · rw [hl, List.append_nil]; exact hC
            · simp only [put_same]
              intro m hm
              rcases List.mem_append.1 hm with hm | hm
              · exact h.below m (List.mem_append_left _ hm)
              · rcases hl with hl | hl
                · rw [hl] at hm; exact f3 m hm
                · rw [hl] at hm; cases hm
            · simp only [put_same]; intro n hn; cases hn
            · simp only [put_same]; intro b _ _ hn; cases hn
          cases ok with
          | true =>
            refine fin _ ?_
            simp only [if_true, Sdk.QueueLoop.step, hp]
            by_cases hms : a.msgs = []
            · right; rw [if_pos hms]; rfl
            · left; rw [if_neg hms]; rfl
          | false =>
            refine fin _ (.inr ?_)
            simp only [Bool.false_eq_true, if_false, Sdk.QueueLoop.step, hp]
            split <;> rfl
        · have hkj : k ≠ a.k := fun hh => hk hh.symm
          refine ⟨?_, ?_, ?_, h'.answers, h'.requests, ?_⟩
          · simp only [put_ne _ _ hkj]; exact h.sorted
          · simp only [put_ne _ _ hkj]; exact h.below
          · simp only [put_ne _ _ hkj]; exact h.asking
          · simp only [put_ne _ _ hkj]; exact h'.fresh
      · exact h'

theorem Ord.run (cfg : Config) (k : Nat) (es : List Event) : Ord ((Net.new cfg).run o es) k (nosOf o k (Net.new cfg) es) := by
  induction es using Verif.Sdk.snoc_ind with
  | h0 => exact ⟨List.Pairwise.nil, fun _ h => (nomatch h), fun _ h => (nomatch h), fun _ h => (nomatch h), fun _ _ h => (nomatch h), fun _ h => (nomatch h)⟩
  | h1 es e ih => rw [run_snoc, nosOf_snoc]; exact ih.step o e

theorem callsByOf_nos (k : Nat) (s : Net) (e : Event) : callsByOf o k s e = (nosByOf o k s e).filterMap (fun m => s.deliveries[m]?) := by
  cases e with
  | client j e r =>
    simp only [callsByOf, nosByOf]
    split
    · exact callsBy_nos o s _
    · rfl
  | _ => rfl

theorem callsOf_nos (cfg : Config) (k : Nat) (es : List Event) :
    callsOf o k (Net.new cfg) es = (nosOf o k (Net.new cfg) es).filterMap (fun m => ((Net.new cfg).run o es).deliveries[m]?) := by
  induction es using Verif.Sdk.snoc_ind with
  | h0 => rfl
  | h1 es e ih =>
    rw [callsOf_snoc, nosOf_snoc, List.filterMap_append, run_snoc, ih, callsByOf_nos]
    obtain ⟨l, hl⟩ := deliveries_step o ((Net.new cfg).run o es) e
    rw [hl, filterMap_grow (fun m hm => (Ord.run o cfg k es).below m (List.mem_append_left _ hm))]
    congr 1
    have hb := (Ord.run o cfg k es)
    cases e with
    | client j e r =>
      have : l = [] := by
        have h2 : (((Net.new cfg).run o es).step o (.client j e r)).deliveries = ((Net.new cfg).run o es).deliveries := by cases e <;> rfl
        rw [h2] at hl
        simpa using hl
      rw [this, List.append_nil]
    | _ => rfl

/-! ## What the server hands out -/

theorem handed_delivered (x : Queue.Out) : (handed (some x)).map (·.id) = x.delivered := by
  cases x <;> rfl

theorem req_pushes (x : Op) : x.req.pushes = x.pushId := by cases x <;> rfl

theorem Fifo.run (cfg : Config) (hmr : 1 ≤ cfg.maxRetries) (pr : Nat → Nat) (es : List Event) (hv : Valid o es) (hr : noRestart es)
    (hp : ∀ x, .op x ∈ es → x.req.ranked pr) :
    ∃ a, RQ ((Net.new cfg).run o es).server.q a (· ∈ pushIds es) ∧ ((Net.new cfg).run o es).server.q.cfg = cfg ∧
      Fifo pr (pushIds es) (handedOut o (Net.new cfg) es) a := by
  induction es using Verif.Sdk.snoc_ind with
  | h0 => exact ⟨_, RQ.init cfg _, rfl, Fifo.init pr⟩
  | h1 es e ih =>
    obtain ⟨a, h1, h2, h3⟩ := ih hv.left (fun n hn => hr n (List.mem_append_left _ hn)) (fun x hx => hp x (List.mem_append_left _ hx))
    have hnd := hv.2.2
    rw [pushIds_append] at hnd
    rw [run_snoc, handedOut_snoc, pushIds_append]
    have go : ∀ (x : Op), x.ok → (∀ id ∈ x.pushId, id ∉ pushIds es) → x.req.ranked pr →
        ∃ b, RQ (Queue.step ((Net.new cfg).run o es).server.q x).1 b (· ∈ pushIds es ++ x.pushId) ∧
          (Queue.step ((Net.new cfg).run o es).server.q x).1.cfg = cfg ∧
          Fifo pr (pushIds es ++ x.pushId) (handedOut o (Net.new cfg) es ++ (handed (((Net.new cfg).run o es).server.step (.op x)).2).map (·.id)) b := by
      intro x hok hf hrank
      obtain ⟨s1, s2, s3⟩ := h1.stepU hok hf
      refine ⟨_, s1, by rw [Queue.step_cfg]; exact h2, ?_⟩
      have h4 := h3.step ((Net.new cfg).run o es).server.q.cfg.visibilityTimeout ((Net.new cfg).run o es).server.q.cfg.maxRetries (by rw [h2]; exact hmr)
        Queue.timeoutReason x.req (by rw [req_pushes]; exact hf) hrank
      rw [req_pushes] at h4
      show Fifo pr _ (_ ++ (handed (some (Queue.step ((Net.new cfg).run o es).server.q x).2.1)).map (·.id)) _
      rw [handed_delivered, s3]
      exact h4
    have idle : ∀ s' : Net, s'.server.q = ((Net.new cfg).run o es).server.q →
        ∃ b, RQ s'.server.q b (· ∈ pushIds es ++ []) ∧ s'.server.q.cfg = cfg ∧ Fifo pr (pushIds es ++ []) (handedOut o (Net.new cfg) es ++ []) b := by
      intro s' hs
      rw [List.append_nil, List.append_nil, hs]
      exact ⟨a, h1, h2, h3⟩
    cases e with
    | op x =>
      have hx : pushIds [.op x] = x.pushId := by simp [pushIds]
      rw [hx] at hnd ⊢
      exact go x (hv.2.1 x (by simp)) (fun id hid hm => (List.nodup_append.1 hnd).2.2 id hm id hid rfl) (hp x (by simp))
    | exec i now =>
      simp only [handsOut, Net.step, pushIds]
      cases hq : ((Net.new cfg).run o es).requests[i]? with
      | none => exact idle _ rfl
      | some q =>
        have := go (q.op o now) (by cases q with | consume k no => exact hv.1 k | ack => trivial | nack => trivial) (by rw [op_pushId]; exact fun _ h => (nomatch h))
          (by cases q <;> trivial)
        rw [op_pushId] at this
        rw [execStep_server]
        exact this
    | client j e r => exact idle _ (by cases e <;> rfl)
    | receive i ok =>
      refine idle _ ?_
      simp only [Net.step]
      cases ((Net.new cfg).run o es).answers[i]? with
      | none => rfl
      | some a => simp only [(receiveStep_fields o _ a ok).1]
    | loseRequest => exact idle _ rfl
    | loseAnswer => exact idle _ rfl
    | commit => exact idle _ rfl
    | restart now => exact absurd (by simp) (hr now)

/-- What the clients are sent is part of what is handed out. -/
theorem deliveries_handed (cfg : Config) (es : List Event) :
    (((Net.new cfg).run o es).deliveries.map (·.id)).Sublist (handedOut o (Net.new cfg) es) := by
  induction es using Verif.Sdk.snoc_ind with
  | h0 => exact List.Sublist.refl _
  | h1 es e ih =>
    rw [run_snoc, handedOut_snoc]
    have same : (((Net.new cfg).run o es).step o e).deliveries = ((Net.new cfg).run o es).deliveries →
        ((((Net.new cfg).run o es).step o e).deliveries.map (·.id)).Sublist (handedOut o (Net.new cfg) es ++ handsOut o ((Net.new cfg).run o es) e) := by
      intro h; rw [h]; exact ih.trans (List.sublist_append_left _ _)
    cases e with
    | exec i now =>
      simp only [Net.step, handsOut] at same ⊢
      cases hq : ((Net.new cfg).run o es).requests[i]? with
      | none => rw [hq] at same; exact same rfl
      | some q =>
        rw [hq] at same
        cases q with
        | ack => exact same rfl
        | nack => exact same rfl
        | consume k no =>
          simp only [execStep, List.map_append]
          exact ih.append (List.Sublist.refl _)
    | client j e r => exact same (by cases e <;> rfl)
    | receive i ok =>
      refine same ?_
      simp only [Net.step]
      cases ((Net.new cfg).run o es).answers[i]? with
      | none => rfl
      | some a => exact (receiveStep_fields o _ a ok).2.2.2
    | _ => exact same rfl

theorem pairwise_of_splits {R : Nat → Nat → Prop} : ∀ {H : List Nat}, (∀ u x v, H = u ++ x :: v → ∀ y ∈ v, R x y) → H.Pairwise R := by
  intro H
  induction H with
  | nil => intro _; exact .nil
  | cons x H ih =>
    intro h
    exact List.pairwise_cons.2 ⟨h [] x H rfl, ih (fun u z v hu => h (x :: u) z v (by rw [hu]; rfl))⟩

/-- The priorities given by the pushes of a history. -/
theorem priorities {es : List Event} (hn : (pushIds es).Nodup) : ∃ pr : Nat → Nat, ∀ x, .op x ∈ es → x.req.ranked pr := by
  induction es with
  | nil => exact ⟨fun _ => 0, fun _ h => (nomatch h)⟩
  | cons e es ih =>
    have other : pushIds (e :: es) = pushIds es → (∀ x, e = .op x → ∀ pr, x.req.ranked pr) → ∃ pr : Nat → Nat, ∀ x, .op x ∈ e :: es → x.req.ranked pr := by
      intro h1 h2
      rw [h1] at hn
      obtain ⟨pr, hp⟩ := ih hn
      refine ⟨pr, fun x hx => ?_⟩
      rcases List.mem_cons.1 hx with hx | hx
      · exact h2 x hx.symm pr
      · exact hp x hx
    have mem : ∀ {l : List Event} {id pl p t}, Event.op (.push id pl p t) ∈ l → id ∈ pushIds l := by
      intro l id pl p t h
      induction l with
      | nil => cases h
      | cons z l ih =>
        rcases List.mem_cons.1 h with rfl | h
        · simp [pushIds, Op.pushId]
        · have := ih h
          cases z <;> simp [pushIds, this]
    cases e with
    | op y =>
      cases y with
      | push id pl p t =>
        have hn' : id ∉ pushIds es ∧ (pushIds es).Nodup := by simpa [pushIds, Op.pushId] using hn
        obtain ⟨pr, hp⟩ := ih hn'.2
        refine ⟨fun i => if i = id then p else pr i, fun x hx => ?_⟩
        rcases List.mem_cons.1 hx with hx | hx
        · cases hx; simp [Queue.Op.req, Spec.Queue.Req.ranked]
        · have h1 := hp x hx
          cases x with
          | push id' pl' p' t' =>
            have hne : id' ≠ id := fun hh => hn'.1 (hh ▸ mem hx)
            simp only [Queue.Op.req, Spec.Queue.Req.ranked, if_neg hne] at h1 ⊢
            exact h1
          | _ => trivial
      | _ => exact other (by simp [pushIds, Op.pushId]) (fun x hx pr => by cases hx; trivial)
    | _ => exact other rfl (fun x hx => nomatch hx)

theorem PushedAhead.before {es : List Event} (hn : (pushIds es).Nodup) {pr : Nat → Nat} (hp : ∀ x, .op x ∈ es → x.req.ranked pr) {y x : Id}
    (h : PushedAhead es y x) : Before (pushIds es) y x ∧ pr x ≤ pr y := by
  obtain ⟨a, b, c, py, px, ry, rx, ty, tx, rfl, hr⟩ := h
  have h1 : ry = pr y := hp (.push y py ry ty) (by simp)
  have h2 : rx = pr x := hp (.push x px rx tx) (by simp)
  refine ⟨?_, by omega⟩
  have he : pushIds (a ++ .op (.push y py ry ty) :: b ++ .op (.push x px rx tx) :: c) = (pushIds a ++ y :: pushIds b) ++ (x :: pushIds c) := by
    simp [pushIds_append, pushIds, Op.pushId]
  rw [he] at hn ⊢
  have hx : x ∉ pushIds a ++ y :: pushIds b := fun hm => (List.nodup_append.1 hn).2.2 x hm x (by simp) rfl
  have hy : y ∈ pushIds a ++ y :: pushIds b := by simp
  refine ⟨by simp, ?_⟩
  rw [Spec.Queue.idxOf_grow hy]
  have := Spec.Queue.idxOf_far (R := x :: pushIds c) hx
  have : (pushIds a ++ y :: pushIds b).idxOf y < (pushIds a ++ y :: pushIds b).length := List.idxOf_lt_length_of_mem hy
  omega

/-- The server hands out in order. -/
theorem handedOut_order (cfg : Config) (hmr : 1 ≤ cfg.maxRetries) (es : List Event) (hv : Valid o es) (hr : noRestart es) :
    ∀ u x v, handedOut o (Net.new cfg) es = u ++ x :: v → ∀ y ∈ v, PushedAhead es y x → y ∈ u := by
  obtain ⟨pr, hp⟩ := priorities hv.2.2
  obtain ⟨a, _, _, h⟩ := Fifo.run o cfg hmr pr es hv hr hp
  intro u x v hu y hy hh
  obtain ⟨h1, h2⟩ := hh.before hv.2.2 hp
  rcases h.past u x v hu y h1 h2 with h3 | h3
  · exact h3
  · exact absurd hy h3.1

theorem pick_pairwise {R : Msg → Msg → Prop} {L : List Msg} (hL : L.Pairwise R) {C : List Nat} (hC : C.Pairwise (· < ·)) :
    (C.filterMap (fun m => L[m]?)).Pairwise R := by
  rw [List.pairwise_filterMap]
  refine hC.imp ?_
  intro i j hij a ha b hb
  rw [List.pairwise_iff_getElem] at hL
  obtain ⟨hi, ha⟩ := List.getElem?_eq_some_iff.1 ha
  obtain ⟨hj, hb⟩ := List.getElem?_eq_some_iff.1 hb
  have := hL i j hi hj hij
  rw [ha, hb] at this
  exact this

theorem callsOf_order (cfg : Config) (hmr : 1 ≤ cfg.maxRetries) (k : Nat) (es : List Event) (hv : Valid o es) (hr : noRestart es) :
    (callsOf o k (Net.new cfg) es).Pairwise (fun x y => PushedAhead es y.id x.id → 2 ≤ (handedOut o (Net.new cfg) es).count y.id) := by
  rw [callsOf_nos]
  refine pick_pairwise ?_ (List.pairwise_append.1 (Ord.run o cfg k es).sorted).1
  have h1 : (handedOut o (Net.new cfg) es).Pairwise (fun x y => PushedAhead es y x → 2 ≤ (handedOut o (Net.new cfg) es).count y) := by
    refine pairwise_of_splits ?_
    intro u x v hu y hy hh
    have h2 := handedOut_order o cfg hmr es hv hr u x v hu y hy hh
    rw [hu, List.count_append, List.count_cons]
    have := List.count_pos_iff.2 h2
    have := List.count_pos_iff.2 hy
    omega
  have h2 := h1.sublist (deliveries_handed o cfg es)
  rw [List.pairwise_map] at h2
  exact h2

/-! ## One callback at a time -/

/-- The workers of a loop. -/
def busy (l : Loop) : Nat := match l.phase with | .batch _ running free => running.length + free | _ => 0

theorem busy_step (c : Nat) (hc : c ≤ 1) (l : Loop) (h : busy l ≤ 1) (e : Ev) : busy (Sdk.QueueLoop.step c l e).1 ≤ 1 := by
  obtain ⟨act, ph⟩ := l
  cases e with
  | delivered ms =>
    cases ph with
    | polling =>
      simp only [Sdk.QueueLoop.step]
      split
      · simp [busy]
      · simp [busy, Sdk.QueueLoop.workers, hc]
    | _ => exact h
  | take up =>
    cases ph with
    | batch t r f =>
      cases f with
      | zero => cases t <;> exact h
      | succ f =>
        cases t with
        | nil =>
          simp only [Sdk.QueueLoop.step]
          simp only [busy] at h
          by_cases hh : r = [] ∧ f = 0
          · rw [if_pos hh]; simp [busy]
          · rw [if_neg hh]; simp only [busy]; omega
        | cons m t =>
          simp only [Sdk.QueueLoop.step]
          simp only [busy] at h
          split
          · simp only [busy, List.length_append, List.length_singleton]; omega
          · simpa only [busy] using h
    | _ => exact h
  | returned m ok up =>
    cases ph with
    | batch t r f =>
      simp only [Sdk.QueueLoop.step]
      split
      · next hm =>
        simp only [busy] at h ⊢
        have := List.length_erase_of_mem hm
        have := List.length_pos_of_mem hm
        omega
      · exact h
    | _ => exact h
  | poll up =>
    cases ph with
    | head => simp only [Sdk.QueueLoop.step]; split <;> (try split) <;> simp [busy]
    | _ => exact h
  | failed =>
    cases ph with
    | polling => simp only [Sdk.QueueLoop.step]; split <;> simp [busy]
    | _ => exact h
  | wake => cases ph <;> first | exact h | simp [Sdk.QueueLoop.step, busy]
  | stop => exact h

theorem busy_run (cfg : Config) (k : Nat) (hc : o.concurrency k ≤ 1) (es : List Event) : busy (((Net.new cfg).run o es).clients k).loop ≤ 1 := by
  induction es using Verif.Sdk.snoc_ind with
  | h0 => simp [Net.run, Net.new, busy]
  | h1 es e ih =>
    rw [run_snoc]
    have cl : ∀ (s : Net) (j : Nat) (ev : Ev) (w : Option Nat), busy (s.clients k).loop ≤ 1 →
        busy (put s.clients j { loop := (Sdk.QueueLoop.step (o.concurrency j) (s.clients j).loop ev).1, waiting := w } k).loop ≤ 1 := by
      intro s j ev w h
      by_cases hj : k = j
      · subst hj; rw [put_same]; exact busy_step _ hc _ h ev
      · rw [put_ne _ _ hj]; exact h
    cases e with
    | client j e r =>
      by_cases hd : ∃ ms, e = .delivered ms
      · obtain ⟨ms, rfl⟩ := hd; exact ih
      · rw [step_client o _ j (fun ms hm => hd ⟨ms, hm⟩)]
        exact cl _ j e _ ih
    | exec i now =>
      simp only [Net.step]
      cases ((Net.new cfg).run o es).requests[i]? with
      | none => exact ih
      | some q => cases q <;> exact ih
    | receive i ok =>
      simp only [Net.step]
      cases ((Net.new cfg).run o es).answers[i]? with
      | none => exact ih
      | some a =>
        simp only [receiveStep]
        split
        · exact cl ((Net.new cfg).run o es) a.k _ _ ih
        · exact ih
    | _ => exact ih

theorem inProgress_busy (l : Loop) : (inProgress l).length ≤ busy l := by
  obtain ⟨act, ph⟩ := l
  cases ph with
  | batch t r f => exact Nat.le_add_right _ _
  | _ => exact Nat.zero_le _

end Verif.QueueE2E
