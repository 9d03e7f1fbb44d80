import Verif.Proofs.QueueStore
import Verif.Proofs.QueueArrival

/-!
# What the listing calls show
-/

namespace Verif.Queue

open Spec.Queue (Item Dead Q Core Req Ans)

theorem waiting_eq (q : QInner) : waiting q = (flat q.state.disp).filterMap (fun id => mget q.state.registry id) := by
  simp only [waiting, QState.getMessages, QState.listing, List.drop_zero, List.take_length]
  simp [flat]

theorem inFlight_eq (q : QInner) : inFlight q = (flat q.state.ackw).filterMap (fun id => mget q.state.registry id) := by
  simp only [inFlight, QState.getMessages, QState.listing, List.drop_zero, List.take_length]
  simp [flat]

theorem deadLetters_eq (q : QInner) : deadLetters q = (q.dlq.map (·.2)).reverse := by
  simp only [deadLetters, dlqPeek, List.drop_zero]
  have : q.dlq.length = ((q.dlq.map (·.2)).reverse).length := by simp
  rw [this, List.take_length]

theorem flat_perm_revFlat (ix : Index) : (flat ix).Perm (revFlat ix) := by
  induction ix with
  | nil => exact List.Perm.refl _
  | cons e t ih =>
    rw [flat_cons, revFlat_cons]
    exact (List.Perm.append_left _ ih).trans List.perm_append_comm

/-- The waiting line, next first. -/
def line (q : QInner) : List Msg := (revFlat q.state.disp).filterMap (fun id => mget q.state.registry id)

theorem waiting_perm_line (q : QInner) : (waiting q).Perm (line q) := by
  rw [waiting_eq]; exact (flat_perm_revFlat _).filterMap _

theorem filterMap_items {f : Id → Option Msg} : ∀ {r : List Item}, (∀ x ∈ r, ∃ m, f x.id = some m ∧ m.item = x) →
    ((r.map (·.id)).filterMap f).map Msg.item = r := by
  intro r
  induction r with
  | nil => intro _; rfl
  | cons x t ih =>
    intro h
    obtain ⟨m, hm, hi⟩ := h x (List.mem_cons_self ..)
    simp only [List.map_cons, List.filterMap_cons, hm, hi, ih (fun y hy => h y (List.mem_cons_of_mem _ hy))]

structure View (q : QInner) (a : Q) : Prop where
  line : (line q).map Msg.item = a.ready
  wait : ((waiting q).map Msg.item).Perm a.ready
  waitReady : ∀ m ∈ waiting q, m.state = .ready
  flight : (inFlight q).map (fun m => (m.due, m.item)) = a.flight
  flightState : ∀ m ∈ inFlight q, m.state = .inFlight m.due
  dead : (deadLetters q).map DlqMsg.dead = a.dead.reverse
  reg : ∀ m, (m ∈ waiting q ∨ m ∈ inFlight q) ↔ mget q.state.registry m.id = some m
  distinct : a.Distinct

theorem RQ.view {q : QInner} {a : Q} {used : Id → Prop} (h : RQ q a used) : View q a := by
  obtain ⟨st, dead, dkey, dwf, disj, usedR, usedD⟩ := h
  have hl : (Verif.Queue.line q).map Msg.item = a.ready := by
    unfold Verif.Queue.line
    rw [RS.idr st]
    exact filterMap_items (fun x hx => by obtain ⟨m, h1, h2, _⟩ := RS.cr st x hx; exact ⟨m, h1, h2⟩)
  have hfl : (inFlight q).map (fun m => (m.due, m.item)) = a.flight ∧ ∀ m ∈ inFlight q, m.state = .inFlight m.due := by
    rw [inFlight_eq, RS.idf st]
    have hcf := RS.cf st
    generalize a.flight = fl at hcf
    induction fl with
    | nil => exact ⟨rfl, by simp⟩
    | cons e t ih =>
      obtain ⟨m, hm, hi, hs⟩ := hcf e (List.mem_cons_self ..)
      obtain ⟨i1, i2⟩ := ih (fun y hy => hcf y (List.mem_cons_of_mem _ hy))
      simp only [List.map_cons, List.filterMap_cons, hm]
      have hdue : m.due = e.1 := by simp only [Msg.due, hs]
      refine ⟨by simp only [List.map_cons, hdue, hi, i1], ?_⟩
      intro x hx
      rcases List.mem_cons.1 hx with rfl | hx
      · rw [hs, hdue]
      · exact i2 x hx
  have hwr : ∀ m ∈ waiting q, m.state = .ready := by
    intro m hm
    have hm' := (waiting_perm_line q).mem_iff.1 hm
    unfold Verif.Queue.line at hm'
    rw [RS.idr st] at hm'
    obtain ⟨i, hi, hmi⟩ := List.mem_filterMap.1 hm'
    exact (RS.ready_iff st hmi).2 hi
  refine ⟨hl, ?_, hwr, hfl.1, hfl.2, ?_, ?_, ?_⟩
  · rw [← hl]; exact (waiting_perm_line q).map _
  · rw [deadLetters_eq, ← dead, List.map_reverse, List.map_map]; rfl
  · intro m
    constructor
    · rintro (hm | hm)
      · rw [waiting_eq] at hm
        obtain ⟨i, _, hmi⟩ := List.mem_filterMap.1 hm
        rw [(RS.comp st i m hmi).1]; exact hmi
      · rw [inFlight_eq] at hm
        obtain ⟨i, _, hmi⟩ := List.mem_filterMap.1 hm
        rw [(RS.comp st i m hmi).1]; exact hmi
    · intro hm
      rcases (RS.comp st _ m hm).2 with ⟨h1, h2⟩ | ⟨ts, h1, h2⟩
      · left
        rw [waiting_eq]
        refine List.mem_filterMap.2 ⟨m.id, ?_, hm⟩
        rw [RS.mem_disp st]; exact List.mem_map.2 ⟨_, h2, rfl⟩
      · right
        rw [inFlight_eq]
        refine List.mem_filterMap.2 ⟨m.id, ?_, hm⟩
        rw [RS.idf st]; exact List.mem_map.2 ⟨_, h2, rfl⟩
  · unfold Spec.Queue.Q.Distinct
    rw [Spec.Queue.ids_eq, List.nodup_append, List.nodup_append]
    have hdk : a.dead.map (·.item.id) = mkeys q.dlq := by
      rw [← dead, List.map_map]
      exact List.map_congr_left (fun e he => (dkey e he).symm)
    refine ⟨RS.ndr st, ⟨RS.ndf st, ?_, ?_⟩, ?_⟩
    · rw [hdk]; exact dwf
    · intro i hi j hj hij
      subst hij
      rw [hdk] at hj
      exact RS.none_not_flight st (disj i hj) hi
    · intro i hi j hj hij
      subst hij
      rcases List.mem_append.1 hj with hj | hj
      · obtain ⟨x, hx, rfl⟩ := List.mem_map.1 hi
        obtain ⟨e, he, hei⟩ := List.mem_map.1 hj
        obtain ⟨m, h1, _, h3⟩ := RS.cr st x hx
        obtain ⟨m', h1', _, h3'⟩ := RS.cf st e he
        rw [hei, h1] at h1'; cases h1'
        rw [h3] at h3'; cases h3'
      · rw [hdk] at hj
        exact RS.none_not_ready st (disj i hj) hi

end Verif.Queue
