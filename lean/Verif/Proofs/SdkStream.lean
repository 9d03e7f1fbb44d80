import Verif.Spec.SdkStream
import Verif.Proofs.SdkQueue

/-! # Invariants of the stream consumer -/

namespace Verif.Sdk.StreamLoop

open Verif.Sdk.QueueLoop (workers Move Traced)

variable (k : Nat)

theorem run_append (s : Loop) (a b : List Ev) : run k s (a ++ b) = run k (run k s a) b := by
  induction a generalizing s with
  | nil => rfl
  | cons e a ih => exact ih _

theorem run_snoc (s : Loop) (a : List Ev) (e : Ev) : run k s (a ++ [e]) = (step k (run k s a) e).1 := by
  rw [run_append]; rfl

theorem outs_append (s : Loop) (a b : List Ev) : outs k s (a ++ b) = outs k s a ++ outs k (run k s a) b := by
  induction a generalizing s with
  | nil => rfl
  | cons e a ih => simp only [List.cons_append, outs, ih, List.append_assoc]; rfl

theorem outs_snoc (s : Loop) (a : List Ev) (e : Ev) : outs k s (a ++ [e]) = outs k s a ++ (step k (run k s a) e).2 := by
  rw [outs_append]; simp [outs]

theorem received_append (s : Loop) (a b : List Ev) : received k s (a ++ b) = received k s a ++ received k (run k s a) b := by
  induction a generalizing s with
  | nil => rfl
  | cons e a ih => simp only [List.cons_append, received, ih, List.append_assoc]; rfl

theorem received_snoc (s : Loop) (a : List Ev) (e : Ev) : received k s (a ++ [e]) = received k s a ++ brings (run k s a) e := by
  rw [received_append]; simp [received]

/-- The worker pool of a stream consumer is the one of a queue consumer that sends no refusals. -/
def view (s : Loop) : QueueLoop.Loop where
  active := s.active
  phase := match s.phase with
    | .batch _ t r f => .batch t r f
    | .polling _ => .polling
    | _ => .head

def evView : Ev → QueueLoop.Ev
  | .delivered ms => .delivered ms
  | .take => .take false
  | .returned m ok up => .returned m true (up && ok)
  | .stop => .stop
  | _ => .wake

def outView : List Out → List QueueLoop.Out
  | [] => []
  | .call m :: os => .call m :: outView os
  | .ack _ m :: os => .ack m :: outView os
  | _ :: os => outView os

theorem outView_append (a b : List Out) : outView (a ++ b) = outView a ++ outView b := by
  induction a with
  | nil => rfl
  | cons o a ih => cases o <;> simp [outView, ih]

theorem outView_called (os : List Out) : QueueLoop.called (outView os) = called os := by
  induction os with
  | nil => rfl
  | cons o os ih => cases o <;> simp [outView, called, QueueLoop.called, ih]

theorem outView_about (m : Nat) (os : List Out) : QueueLoop.about m (outView os) = outView (about m os) := by
  induction os with
  | nil => rfl
  | cons o os ih =>
    simp only [QueueLoop.about, about] at ih
    cases o with
    | call n => by_cases h : n = m <;> simp [outView, about, QueueLoop.about, Out.of, QueueLoop.Out.of, h, ih]
    | ack c n => by_cases h : n = m <;> simp [outView, about, QueueLoop.about, Out.of, QueueLoop.Out.of, h, ih]
    | _ => simp [outView, about, QueueLoop.about, Out.of, ih]

theorem view_inProgress (s : Loop) : QueueLoop.inProgress (view s) = inProgress s := by
  unfold QueueLoop.inProgress view inProgress
  cases s.phase <;> rfl

theorem view_brings (s : Loop) (e : Ev) : QueueLoop.brings (view s) (evView e) = brings s e := by
  cases e <;> cases hp : s.phase <;> simp [QueueLoop.brings, view, evView, brings, hp]

theorem move (s : Loop) (e : Ev) : Move (view s) (evView e) (view (step k s e).1) (outView (step k s e).2) := by
  have quiet : ∀ (e : Ev) (s' : Loop) (o : List QueueLoop.Out), QueueLoop.brings (view s) (evView e) = [] → o = [] →
      QueueLoop.todo (view s') = QueueLoop.todo (view s) → inProgress s' = inProgress s → s'.active = s.active → Move (view s) (evView e) (view s') o := by
    intro e s' o hb ho h1 h2 h3
    exact .other _ _ _ hb h1 (by rw [view_inProgress, view_inProgress, h2]) (.inl ho) (.inl h3)
  have same : QueueLoop.brings (view s) (evView e) = [] → Move (view s) (evView e) (view s) [] := fun h => quiet e s [] h rfl rfl rfl rfl
  have hcaught : ∀ (e : Ev) (again : Bool), QueueLoop.brings (view s) (evView e) = [] → QueueLoop.todo (view s) = [] → inProgress s = [] →
      Move (view s) (evView e) (view (caught s again).1) (outView (caught s again).2) := by
    intro e again hb h1 h2
    unfold caught
    split
    · exact quiet _ _ _ hb rfl (by rw [h1]; rfl) (by rw [h2]; rfl) rfl
    split
    · exact quiet _ _ _ hb rfl (by rw [h1]; rfl) (by rw [h2]; rfl) rfl
    · exact quiet _ _ _ hb rfl (by rw [h1]; rfl) (by rw [h2]; rfl) rfl
  cases e with
  | go up =>
    simp only [step]
    split
    · next hp =>
      have h1 : QueueLoop.todo (view s) = [] := by simp [QueueLoop.todo, view, hp]
      have h2 : inProgress s = [] := by simp [inProgress, hp]
      split
      · exact quiet (.go up) _ _ rfl rfl (by rw [h1]; rfl) (by rw [h2]; rfl) rfl
      split
      · exact hcaught (.go up) false rfl h1 h2
      · split
        · exact quiet (.go up) _ _ rfl rfl (by rw [h1]; rfl) (by rw [h2]; rfl) rfl
        · exact quiet (.go up) _ _ rfl rfl (by rw [h1]; rfl) (by rw [h2]; rfl) rfl
    · exact same rfl
  | joined c =>
    simp only [step]
    split
    · next hp =>
      have h1 : QueueLoop.todo (view s) = [] := by simp [QueueLoop.todo, view, hp]
      have h2 : inProgress s = [] := by simp [inProgress, hp]
      exact quiet (.joined c) _ _ rfl rfl (by rw [h1]; rfl) (by rw [h2]; rfl) rfl
    · exact same rfl
  | joinFailed again =>
    simp only [step]
    split
    · next hp => exact hcaught (.joinFailed again) again rfl (by simp [QueueLoop.todo, view, hp]) (by simp [inProgress, hp])
    · exact same rfl
  | fetchFailed again =>
    simp only [step]
    split
    · next hp => exact hcaught (.fetchFailed again) again rfl (by simp [QueueLoop.todo, view, hp]) (by simp [inProgress, hp])
    · exact same rfl
  | wake =>
    simp only [step]
    split
    · next hp => exact quiet .wake _ _ rfl rfl (by simp [QueueLoop.todo, view, hp]) (by simp [inProgress, hp]) rfl
    · exact same rfl
  | delivered ms =>
    simp only [step]
    split
    · next c hp =>
      refine .bring ms _ ⟨by simp [QueueLoop.todo, view, hp], by rw [view_inProgress]; simp [inProgress, hp]⟩ (by simp [view, hp]) ?_ ?_ rfl
      · by_cases hm : ms = [] <;> simp [hm, QueueLoop.todo, view]
      · by_cases hm : ms = [] <;> simp [hm, QueueLoop.inProgress, view]
    · next hp =>
      refine same ?_
      rw [view_brings]
      unfold brings
      split
      · next h => exact absurd h (hp _)
      · rfl
  | take =>
    simp only [step]
    split
    · next c m t r f hp =>
      split
      · next ha => exact .call m false _ ha (by simp [QueueLoop.todo, view, hp]) (by simp [QueueLoop.inProgress, view, hp]) rfl
      · next ha => exact .skip m false _ (show s.active = false by simpa using ha) (by simp [QueueLoop.todo, view, hp]) (by simp [QueueLoop.inProgress, view, hp]) rfl
    · next c r f hp =>
      refine quiet .take _ _ rfl rfl ?_ ?_ rfl
      · by_cases h : r = [] ∧ f = 0 <;> simp [h, QueueLoop.todo, view, hp]
      · by_cases h : r = [] ∧ f = 0 <;> simp [h, inProgress, hp]
    · exact same rfl
  | returned m ok up =>
    simp only [step]
    split
    · next c t r f hp =>
      split
      · next hm =>
        have ho : outView (if (up && ok) = true then [Out.ack c m] else []) = if (up && ok) = true then (if true = true then [QueueLoop.Out.ack m] else [.nack m]) else [] := by
          cases (up && ok) <;> rfl
        rw [ho]
        exact .ret m true (up && ok) _ (by simpa [QueueLoop.inProgress, view, hp] using hm) (by simp [QueueLoop.todo, view, hp])
          (by simp [QueueLoop.inProgress, view, hp]) rfl
      · exact same rfl
    · exact same rfl
  | stop =>
    simp only [step]
    refine .other _ _ _ rfl rfl (by rw [view_inProgress, view_inProgress]; rfl) (.inl ?_) (.inr ⟨rfl, rfl⟩)
    cases s.member <;> rfl

theorem traced (c : Member) (es : List Ev) (hn : (received k { member := some c } es).Nodup) :
    ∃ up, Traced (view (run k { member := some c } es)) (outView (outs k { member := some c } es)) (received k { member := some c } es) up := by
  induction es using snoc_ind with
  | h0 => exact ⟨true, QueueLoop.traced_init⟩
  | h1 es e ih =>
    rw [received_snoc] at hn
    obtain ⟨up, h⟩ := ih (List.nodup_append.mp hn).1
    rw [run_snoc, outs_snoc, received_snoc, outView_append]
    have hb := view_brings (run k { member := some c } es) e
    rw [← hb] at hn ⊢
    exact ⟨_, QueueLoop.traced_step h hn (move k _ e)⟩

/-- The workers are no more than were asked for, and a batch has at least one. -/
def Staffed (s : Loop) : Prop :=
  match s.phase with
  | .batch _ _ running free => running.length + free ≤ max 1 k ∧ (running ≠ [] ∨ 0 < free)
  | _ => True

theorem staffed_step {s : Loop} (h : Staffed k s) (e : Ev) : Staffed k (step k s e).1 := by
  have hc : ∀ again, Staffed k (caught s again).1 := by
    intro again
    unfold caught
    split
    · trivial
    split <;> trivial
  cases e with
  | go up =>
    simp only [step]
    split
    · split
      · trivial
      split
      · exact hc false
      · split <;> trivial
    · exact h
  | joined c =>
    simp only [step]
    split
    · trivial
    · exact h
  | joinFailed again =>
    simp only [step]
    split
    · exact hc again
    · exact h
  | fetchFailed again =>
    simp only [step]
    split
    · exact hc again
    · exact h
  | delivered ms =>
    simp only [step]
    split
    · by_cases hm : ms = []
      · simp [hm, Staffed]
      · simp only [hm, if_false, Staffed, List.length_nil, Nat.zero_add]
        exact ⟨QueueLoop.workers_le k _, .inr (QueueLoop.workers_pos k (List.length_pos_iff.mpr hm))⟩
    · exact h
  | wake =>
    simp only [step]
    split
    · trivial
    · exact h
  | take =>
    simp only [step]
    split
    · next c m t r f hp =>
      simp only [Staffed, hp] at h
      split
      · simp only [Staffed, List.length_append, List.length_singleton]
        exact ⟨by omega, .inl (by simp)⟩
      · simp only [Staffed]
        exact ⟨by omega, .inr (by omega)⟩
    · next c r f hp =>
      simp only [Staffed, hp] at h
      by_cases hc : r = [] ∧ f = 0
      · simp [hc, Staffed]
      · simp only [hc, if_false, Staffed]
        refine ⟨by omega, ?_⟩
        by_cases hr : r = []
        · right
          have : f ≠ 0 := fun hf => hc ⟨hr, hf⟩
          omega
        · exact .inl hr
    · exact h
  | returned m ok up =>
    simp only [step]
    split
    · next c t r f hp =>
      simp only [Staffed, hp] at h
      split
      · next hm =>
        simp only [Staffed, List.length_erase_of_mem hm]
        have : 0 < r.length := List.length_pos_iff.mpr (List.ne_nil_of_mem hm)
        exact ⟨by omega, .inr (by omega)⟩
      · simp only [Staffed, hp]; exact h
    · exact h
  | stop => exact h

theorem staffed (c : Member) (es : List Ev) : Staffed k (run k { member := some c } es) := by
  have : ∀ (s : Loop), Staffed k s → Staffed k (run k s es) := by
    induction es with
    | nil => intro s h; exact h
    | cons e es ih => intro s h; exact ih _ (staffed_step k h e)
  exact this _ trivial

theorem active_step (s : Loop) (e : Ev) : (step k s e).1.active = (s.active && decide (e ≠ .stop)) := by
  cases e <;> simp only [step, caught] <;> (try simp) <;> (repeat' split) <;> simp

theorem inactive_iff (c : Member) (es : List Ev) : (run k { member := some c } es).active = false ↔ Ev.stop ∈ es := by
  induction es using snoc_ind with
  | h0 => simp [run]
  | h1 es e ih =>
    rw [run_snoc, active_step, List.mem_append, ← ih]
    by_cases he : e = .stop
    · simp [he]
    · simp [he, Ne.symm he]

theorem out_split {es : List Ev} {o : Out} {s : Loop} (h : o ∈ outs k s es) :
    ∃ a e b, es = a ++ e :: b ∧ o ∈ (step k (run k s a) e).2 := by
  induction es generalizing s with
  | nil => cases h
  | cons e es ih =>
    simp only [outs, List.mem_append] at h
    rcases h with h | h
    · exact ⟨[], e, es, rfl, h⟩
    · obtain ⟨a, e', b, rfl, h'⟩ := ih h
      exact ⟨e :: a, e', b, rfl, h'⟩

theorem lastFetch_append (a b : List Out) : lastFetch (a ++ b) = (lastFetch b).or (lastFetch a) := by
  induction a with
  | nil => simp [lastFetch]
  | cons o a ih => simp only [List.cons_append, lastFetch, ih, Option.or_assoc]

/-- The membership under which the loop waits for messages or works on them. -/
def usedBy (s : Loop) : Option Member :=
  match s.phase with
  | .polling c => some c
  | .batch c _ _ _ => some c
  | _ => none

/-- A message of the batch: its event, and that it came with the answer of a fetch under the membership of the batch. -/
def Came (s0 : Loop) (es : List Ev) (c : Member) (m : Nat) : Prop :=
  ∃ a ms b, es = a ++ Ev.delivered ms :: b ∧ m ∈ ms ∧ (run k s0 a).phase = .polling c

theorem usedBy_step {s : Loop} {e : Ev} {c : Member} (h : usedBy (step k s e).1 = some c) :
    usedBy s = some c ∧ lastFetch (step k s e).2 = none ∨ lastFetch (step k s e).2 = some c := by
  have hc : ∀ again, usedBy (caught s again).1 = some c → False := by
    intro again h
    unfold caught at h
    split at h
    · simp [usedBy] at h
    split at h <;> simp [usedBy] at h
  cases e with
  | go up =>
    simp only [step] at h ⊢
    split at h
    · split at h
      · simp [usedBy] at h
      split at h
      · exact (hc _ h).elim
      · next h1 h2 =>
        simp only [h1, h2, if_false]
        cases hm : s.member with
        | none => simp [hm, usedBy] at h
        | some d => simp [hm, usedBy] at h; subst h; exact .inr rfl
    · next hp => exact .inl ⟨h, rfl⟩
  | joined d =>
    simp only [step] at h ⊢
    split at h
    · simp [usedBy] at h; subst h; exact .inr rfl
    · next hp => exact .inl ⟨h, rfl⟩
  | joinFailed again =>
    simp only [step] at h ⊢
    split at h
    · exact (hc _ h).elim
    · next hp => exact .inl ⟨h, rfl⟩
  | fetchFailed again =>
    simp only [step] at h ⊢
    split at h
    · exact (hc _ h).elim
    · next hp => exact .inl ⟨h, rfl⟩
  | delivered ms =>
    simp only [step] at h ⊢
    split at h
    · next d hp =>
      by_cases hm : ms = []
      · simp [hm, usedBy] at h
      · simp [hm, usedBy] at h; subst h; exact .inl ⟨by simp [usedBy, hp], rfl⟩
    · exact .inl ⟨h, rfl⟩
  | wake =>
    simp only [step] at h ⊢
    split at h
    · simp [usedBy] at h
    · exact .inl ⟨h, rfl⟩
  | take =>
    simp only [step] at h ⊢
    split at h
    · next d m t r f hp =>
      split at h
      · next ha => simp [usedBy] at h; subst h; simp only [ha, if_true]; exact .inl ⟨by simp [usedBy, hp], rfl⟩
      · next ha => simp [usedBy] at h; subst h; simp only [ha]; exact .inl ⟨by simp [usedBy, hp], rfl⟩
    · next d r f hp =>
      by_cases hc' : r = [] ∧ f = 0
      · simp [hc', usedBy] at h
      · simp [hc', usedBy] at h; subst h; exact .inl ⟨by simp [usedBy, hp], rfl⟩
    · exact .inl ⟨h, rfl⟩
  | returned m ok up =>
    simp only [step] at h ⊢
    split at h
    · next d t r f hp =>
      split at h
      · next hm =>
        simp [usedBy] at h; subst h
        simp only [hm, if_true]
        exact .inl ⟨by simp [usedBy, hp], by cases up <;> cases ok <;> rfl⟩
      · next hm => simp only [hm, if_false]; exact .inl ⟨h, rfl⟩
    · exact .inl ⟨h, rfl⟩
  | stop =>
    simp only [step] at h ⊢
    refine .inl ⟨h, ?_⟩
    cases s.member <;> rfl

theorem usedBy_last (s0 : Loop) (h0 : usedBy s0 = none) (es : List Ev) {c : Member} (h : usedBy (run k s0 es) = some c) :
    lastFetch (outs k s0 es) = some c := by
  induction es using snoc_ind generalizing c with
  | h0 => simp [run, h0] at h
  | h1 es e ih =>
    rw [run_snoc] at h
    rw [outs_snoc, lastFetch_append]
    rcases usedBy_step k h with ⟨h1, h2⟩ | h1
    · rw [h2, ih h1]; rfl
    · rw [h1]; rfl

theorem came (s0 : Loop) (h0 : usedBy s0 = none) (es : List Ev) {c : Member} {t r : List Nat} {f : Nat} (h : (run k s0 es).phase = .batch c t r f) :
    ∀ m, m ∈ t ∨ m ∈ r → Came k s0 es c m := by
  induction es using snoc_ind generalizing c t r f with
  | h0 => simp only [run] at h; simp [usedBy, h] at h0
  | h1 es e ih =>
    rw [run_snoc] at h
    have grow : ∀ m, Came k s0 es c m → Came k s0 (es ++ [e]) c m := by
      rintro m ⟨a, ms, b, rfl, hm, hp⟩
      exact ⟨a, ms, b ++ [e], by simp, hm, hp⟩
    have same : ∀ {t' r' : List Nat} {f' : Nat}, (run k s0 es).phase = .batch c t' r' f' → (∀ m, m ∈ t ∨ m ∈ r → m ∈ t' ∨ m ∈ r') →
        ∀ m, m ∈ t ∨ m ∈ r → Came k s0 (es ++ [e]) c m := fun hp hsub m hm => grow m (ih hp m (hsub m hm))
    generalize hs : run k s0 es = s at h same
    have hc : ∀ again, (caught s again).1.phase = .batch c t r f → False := by
      intro again h
      unfold caught at h
      split at h
      · cases h
      split at h <;> cases h
    cases e with
    | go up =>
      simp only [step] at h
      split at h
      · split at h
        · cases h
        split at h
        · exact (hc _ h).elim
        · split at h <;> cases h
      · exact same h (fun _ h => h)
    | joined d =>
      simp only [step] at h
      split at h
      · cases h
      · exact same h (fun _ h => h)
    | joinFailed again =>
      simp only [step] at h
      split at h
      · exact (hc _ h).elim
      · exact same h (fun _ h => h)
    | fetchFailed again =>
      simp only [step] at h
      split at h
      · exact (hc _ h).elim
      · exact same h (fun _ h => h)
    | delivered ms =>
      simp only [step] at h
      split at h
      · next d hp =>
        by_cases hm : ms = []
        · simp [hm] at h
        · simp [hm] at h
          obtain ⟨rfl, rfl, rfl, _⟩ := h
          intro m hm
          exact ⟨es, ms, [], rfl, hm.resolve_right (by simp), by rw [hs]; exact hp⟩
      · exact same h (fun _ h => h)
    | wake =>
      simp only [step] at h
      split at h
      · cases h
      · exact same h (fun _ h => h)
    | take =>
      simp only [step] at h
      split at h
      · next d m t r f hp =>
        split at h
        · simp at h
          obtain ⟨rfl, rfl, rfl, _⟩ := h
          exact same hp (fun n hn => by simp at hn ⊢; rcases hn with hn | hn | hn <;> simp [hn])
        · simp at h
          obtain ⟨rfl, rfl, rfl, _⟩ := h
          exact same hp (fun n hn => by simp at hn ⊢; rcases hn with hn | hn <;> simp [hn])
      · next d r f hp =>
        by_cases hc' : r = [] ∧ f = 0
        · simp [hc'] at h
        · simp [hc'] at h
          obtain ⟨rfl, rfl, rfl, _⟩ := h
          exact same hp (fun n hn => hn)
      · exact same h (fun _ h => h)
    | returned m ok up =>
      simp only [step] at h
      split at h
      · next d t r f hp =>
        split at h
        · simp at h
          obtain ⟨rfl, rfl, rfl, _⟩ := h
          exact same hp (fun n hn => hn.imp id List.mem_of_mem_erase)
        · exact same h (fun _ h => h)
      · exact same h (fun _ h => h)
    | stop => exact same h (fun _ h => h)

theorem ack_event {s : Loop} {e : Ev} {c : Member} {m : Nat} (h : Out.ack c m ∈ (step k s e).2) :
    e = .returned m true true ∧ ∃ t r f, s.phase = .batch c t r f ∧ m ∈ r := by
  have hc : ∀ again, Out.ack c m ∉ (caught s again).2 := by
    intro again h
    unfold caught at h
    split at h
    · simp at h
    split at h <;> simp at h
  cases e with
  | go up =>
    simp only [step] at h
    split at h
    · split at h
      · simp at h
      split at h
      · exact (hc _ h).elim
      · split at h <;> simp at h
    · cases h
  | joined d => simp only [step] at h; split at h <;> simp at h
  | joinFailed again =>
    simp only [step] at h
    split at h
    · exact (hc _ h).elim
    · cases h
  | fetchFailed again =>
    simp only [step] at h
    split at h
    · exact (hc _ h).elim
    · cases h
  | delivered ms => simp only [step] at h; split at h <;> cases h
  | wake => simp only [step] at h; split at h <;> cases h
  | take =>
    simp only [step] at h
    split at h
    · split at h <;> simp at h
    · cases h
    · cases h
  | returned n ok up =>
    simp only [step] at h
    split at h
    · next d t r f hp =>
      split at h
      · next hm =>
        cases up <;> cases ok <;> simp at h
        obtain ⟨rfl, rfl⟩ := h
        exact ⟨rfl, t, r, f, hp, hm⟩
      · cases h
    · cases h
  | stop =>
    simp only [step] at h
    cases hm : s.member <;> simp [hm] at h

/-- A stopped consumer calls nothing, does not join, and keeps its membership unless it waits for the answer of a join. -/
theorem stopped_step {s : Loop} (ha : s.active = false) (e : Ev) :
    (∀ m, Out.call m ∉ (step k s e).2) ∧ Out.join ∉ (step k s e).2 ∧
    (s.phase ≠ .joining → (step k s e).1.phase ≠ .joining ∧ (step k s e).1.member = s.member ∧ ∀ c, Out.fetch c ∉ (step k s e).2) := by
  have hc : ∀ again, (caught s again) = ({ s with phase := .finished }, [.finished]) := by
    intro again; unfold caught; simp [ha]
  cases e with
  | go up =>
    simp only [step, hc, ha]
    split
    · simp
    · exact ⟨by simp, by simp, fun h => ⟨h, rfl, by simp⟩⟩
  | joined d =>
    simp only [step]
    split
    · next hp => exact ⟨by simp, by simp, fun h => absurd hp h⟩
    · exact ⟨by simp, by simp, fun h => ⟨h, rfl, by simp⟩⟩
  | joinFailed again =>
    simp only [step, hc]
    split
    · simp
    · exact ⟨by simp, by simp, fun h => ⟨h, rfl, by simp⟩⟩
  | fetchFailed again =>
    simp only [step, hc]
    split
    · simp
    · exact ⟨by simp, by simp, fun h => ⟨h, rfl, by simp⟩⟩
  | delivered ms =>
    simp only [step]
    split
    · exact ⟨by simp, by simp, fun h => ⟨by by_cases hm : ms = [] <;> simp [hm], rfl, by simp⟩⟩
    · exact ⟨by simp, by simp, fun h => ⟨h, rfl, by simp⟩⟩
  | wake =>
    simp only [step]
    split
    · simp
    · exact ⟨by simp, by simp, fun h => ⟨h, rfl, by simp⟩⟩
  | take =>
    simp only [step, ha]
    split
    · simp
    · next r f hp => exact ⟨by simp, by simp, fun h => ⟨by by_cases hm : r = [] ∧ f = 0 <;> simp [hm], rfl, by simp⟩⟩
    · exact ⟨by simp, by simp, fun h => ⟨h, rfl, by simp⟩⟩
  | returned n ok up =>
    simp only [step]
    split
    · split
      · refine ⟨?_, ?_, fun _ => ⟨by simp, rfl, ?_⟩⟩ <;> (cases up <;> cases ok <;> simp)
      · exact ⟨by simp, by simp, fun h => ⟨h, rfl, by simp⟩⟩
    · exact ⟨by simp, by simp, fun h => ⟨h, rfl, by simp⟩⟩
  | stop =>
    simp only [step]
    refine ⟨?_, ?_, fun h => ⟨h, trivial, ?_⟩⟩ <;> cases s.member <;> simp

/-- How many steps a stopped loop can still make, apart from those for messages it has yet to receive. -/
def effort (s : Loop) : Nat :=
  match s.phase with
  | .finished => 0
  | .head => 1
  | .polling _ => 2
  | .backoff => 2
  | .joining => 3
  | .batch _ todo running free => 1 + todo.length + 2 * running.length + free

theorem effort_step {s : Loop} (ha : s.active = false) (e : Ev) (hne : (step k s e).1 ≠ s) :
    effort (step k s e).1 + 1 ≤ effort s + 2 * (brings s e).length := by
  have hc : ∀ again, (caught s again) = ({ s with phase := .finished }, [.finished]) := by
    intro again; unfold caught; simp [ha]
  cases e with
  | go up =>
    simp only [step, hc] at hne ⊢
    split at hne
    · next hp =>
      simp only [ha, Bool.not_false, if_true]
      simp [effort, hp]
    · exact absurd rfl hne
  | joined d =>
    simp only [step] at hne ⊢
    split at hne
    · next hp => simp [effort, hp]
    · exact absurd rfl hne
  | joinFailed again =>
    simp only [step, hc] at hne ⊢
    split at hne
    · next hp => simp [effort, hp]; omega
    · exact absurd rfl hne
  | fetchFailed again =>
    simp only [step, hc] at hne ⊢
    split at hne
    · next hp => simp [effort, hp]; omega
    · exact absurd rfl hne
  | delivered ms =>
    simp only [step] at hne ⊢
    split at hne
    · next d hp =>
      have hb : brings s (.delivered ms) = ms := by unfold brings; rw [hp]
      rw [hb]
      by_cases hm : ms = []
      · simp [hm, effort, hp]
      · simp only [hm, if_false, effort, hp, List.length_nil]
        have := QueueLoop.workers_le_len k (List.length_pos_iff.mpr hm)
        omega
    · exact absurd rfl hne
  | wake =>
    simp only [step] at hne ⊢
    split at hne
    · next hp => simp [effort, hp]
    · exact absurd rfl hne
  | take =>
    simp only [step] at hne ⊢
    split at hne
    · next d m t r f hp =>
      simp only [ha, effort, hp, List.length_cons]
      simp only [Bool.false_eq_true, if_false]
      omega
    · next d r f hp =>
      by_cases hc : r = [] ∧ f = 0
      · simp [hc, effort, hp]
      · simp only [hc, if_false, effort, hp, List.length_nil]
        omega
    · exact absurd rfl hne
  | returned m ok up =>
    simp only [step] at hne ⊢
    split at hne
    · next d t r f hp =>
      split at hne
      · next hm =>
        simp only [hm, if_true, effort, hp, List.length_erase_of_mem hm]
        have : 0 < r.length := List.length_pos_iff.mpr (List.ne_nil_of_mem hm)
        omega
      · exact absurd rfl hne
    · exact absurd rfl hne
  | stop =>
    refine absurd ?_ hne
    simp only [step]
    cases s
    simp_all

/-- Every event of the history changes the state of the loop. -/
def Effective (s : Loop) : List Ev → Prop
  | [] => True
  | e :: es => (step k s e).1 ≠ s ∧ Effective (step k s e).1 es

end Verif.Sdk.StreamLoop
