import Verif.Model.QueueWait
import Verif.Proofs.QueueCrash

/-!
# Invariant of long-polling consumers (for C37)
-/

namespace Verif.Queue

open Spec.Queue (Item Dead Q Core Req Ans)

/-- A schedule is valid if every request is (see `Op.ok`) and pushed ids are distinct. -/
def ValidSched (es : List WEvent) : Prop :=
  (∀ e ∈ es, match e with | .op o => o.ok | .enter max => max * msgSize ≤ isizeMax | _ => True) ∧ (waitIds es).Nodup

/-- A request that does not notify does not make a message available in an empty queue. -/
theorem quiet_step {q : QInner} {a : Q} {used : List Id} (h : RQ q a (· ∈ used)) (o : Op) (hok : o.ok)
    (hfresh : ∀ i ∈ o.pushId, i ∉ used) (hq : notifies q o = false) (he : waiting q = []) : waiting (step q o).1 = [] := by
  have hr : a.ready = [] := by
    have := h.view.wait
    rw [he] at this
    exact List.nil_perm.1 this
  obtain ⟨s1, _, _⟩ := h.stepU hok hfresh
  have done_ : (sstep q.cfg a o).1.ready = [] → waiting (step q o).1 = [] := by
    intro hh
    have := s1.view.wait
    rw [hh] at this
    simpa using List.perm_nil.1 this
  have reg_ : (∀ i m, mget (step q o).1.state.registry i = some m → mget q.state.registry i = some m) → waiting (step q o).1 = [] := by
    intro hsub
    rw [List.eq_nil_iff_forall_not_mem]
    intro m hm
    have v' := s1.view
    have hst := v'.waitReady m hm
    have := (h.view.reg m).2 (hsub _ _ ((v'.reg m).1 (Or.inl hm)))
    rcases this with hh | hh
    · rw [he] at hh; cases hh
    · rw [h.view.flightState m hh] at hst; cases hst
  cases o with
  | push id pl pr now => simp [notifies] at hq
  | pop now => exact done_ (by simp [sstep, Op.req, Spec.Queue.step, Spec.Queue.serve, hr])
  | consume max now =>
    refine done_ ?_
    simp only [sstep, Op.req, Spec.Queue.step]
    cases max with
    | zero => exact hr
    | succ n => simp [Spec.Queue.serveN, Spec.Queue.serve, hr]
  | ack id => exact done_ (by simp [sstep, Op.req, Spec.Queue.step, Spec.Queue.settle, Spec.Queue.dropReady, hr])
  | nack id reason now =>
    have hn := (SR.nack (d := a.dead) h.st id reason q.cfg.maxRetries now).2
    simp only [notifies] at hq
    apply reg_
    intro i m hm
    have hst : (step q (.nack id reason now)).1.state = (q.state.nack id reason q.cfg.maxRetries now).2 := by
      simp only [step]; split <;> rename_i hh <;> rw [hh]
    rw [hst] at hm
    cases hg : mget q.state.registry id with
    | none =>
      rw [hg] at hn
      rw [hn.2.1] at hm
      exact hm
    | some m0 =>
      rw [hg] at hn
      obtain ⟨_, hn⟩ := hn
      split at hn
      · rw [hn.2.2] at hm
        by_cases hi : i = id
        · subst hi; rw [fset_same] at hm; cases hm
        · rw [fset_ne _ _ hi] at hm; exact hm
      · rw [hn.1] at hq; simp at hq
  | tick now now' =>
    simp only [notifies] at hq
    cases ht : q.state.nextTimeout with
    | none =>
      have : (step q (.tick now now')).1 = q := by simp only [step, ht]
      rw [this]; exact he
    | some ts =>
      rw [ht] at hq
      by_cases hts : ts ≤ now
      · simp only [hts, decide_true, Bool.true_and, Bool.not_eq_false', List.isEmpty_iff] at hq
        obtain ⟨_, _, _, _, _, p6, p7⟩ := SR.processExpired (d := a.dead) h.st q.cfg.maxRetries now'
        apply reg_
        intro i m hm
        have hst : (step q (.tick now now')).1.state = (q.state.processExpired q.cfg.maxRetries now').2 := by
          simp only [step, ht, hts, if_true]
        rw [hst] at hm
        by_cases hi : i ∈ (q.state.processExpired q.cfg.maxRetries now').1.2.map (·.id)
        · rw [p6 i hi] at hm; cases hm
        · rw [p7 i hi, hq] at hm
          simpa using hm
      · have : (step q (.tick now now')).1 = q := by simp only [step, ht, hts, if_false]
        rw [this]; exact he
  | moveToQueue id =>
    simp only [notifies] at hq
    have hnone : (dlqRemove q.dlq id).1 = none := by simpa using hq
    have : (step q (.moveToQueue id)).1 = q := by
      simp only [step]
      split
      · next hh => rw [hh] at hnone; cases hnone
      · rfl
    rw [this]; exact he
  | peekDlq limit offset => exact he
  | deleteDlq id =>
    apply reg_
    intro i m hm
    have : (step q (.deleteDlq id)).1.state = q.state := by
      simp only [step]; split <;> rfl
    rw [this] at hm; exact hm
  | purgeDlq => exact reg_ (fun i m hm => hm)
  | counters => exact he

/-- The invariant: nobody sleeps next to a waiting message without a wake-up on its way. -/
structure WaitInv (s : Waits) (used : List Id) : Prop where
  q : ∃ a, RQ s.q a (· ∈ used)
  trying : ∀ max snap, .trying max snap ∈ s.waiters → max * msgSize ≤ isizeMax ∧ snap ≤ s.counter
  asleep : ∀ max snap, .asleep max snap ∈ s.waiters → max * msgSize ≤ isizeMax ∧ snap ≤ s.counter ∧
    (0 < max → waiting s.q ≠ [] → snap = s.counter → 0 < s.notifying)

theorem mem_set {α : Type} {l : List α} {i : Nat} {v w : α} (h : w ∈ l.set i v) : w = v ∨ w ∈ l := by
  rcases List.mem_or_eq_of_mem_set h with h | h
  · exact Or.inr h
  · exact Or.inl h

theorem consume_takes {q : QInner} {a : Q} {used : List Id} (h : RQ q a (· ∈ used)) {max now : Nat} (hsz : max * msgSize ≤ isizeMax) :
    ∃ l, (step q (.consume max now)).2.1 = .msgs l ∧ (l = [] → 0 < max → waiting q = []) := by
  have hns : ¬ max * msgSize > isizeMax := Nat.not_lt.2 hsz
  have hout : (step q (.consume max now)).2.1 = .msgs (q.state.takeBatch now q.cfg.visibilityTimeout max).1 := by
    simp only [step, hns, if_false]
  refine ⟨_, hout, ?_⟩
  intro hl hmax
  have ha := (h.stepU (op := .consume max now) hsz (by simp [Op.pushId])).2.1
  rw [hout, hl] at ha
  simp only [Out.ans, sstep, Op.req, Spec.Queue.step, Option.some.injEq, Ans.msgs.injEq, List.map_nil] at ha
  have hr : a.ready = [] := by
    cases max with
    | zero => omega
    | succ n =>
      cases hx : a.ready with
      | nil => rfl
      | cons x t => simp [Spec.Queue.serveN, Spec.Queue.serve, hx] at ha
  have := h.view.wait
  rw [hr] at this
  simpa using List.perm_nil.1 this

theorem WaitInv.step {s : Waits} {used : List Id} (h : WaitInv s used) (e : WEvent)
    (hok : match e with | .op o => o.ok | .enter max => max * msgSize ≤ isizeMax | _ => True) (hf : ∀ i ∈ waitIds [e], i ∉ used) :
    WaitInv (s.step e) (used ++ waitIds [e]) := by
  obtain ⟨a, ha⟩ := h.q
  cases e with
  | op o =>
    have hids : waitIds [.op o] = o.pushId := by cases o <;> rfl
    rw [hids] at hf ⊢
    refine ⟨⟨_, (ha.stepU hok hf).1⟩, h.trying, ?_⟩
    intro max snap hw
    obtain ⟨h1, h2, h3⟩ := h.asleep max snap hw
    refine ⟨h1, h2, ?_⟩
    intro hm hne hs
    simp only [Waits.step] at hne hs ⊢
    by_cases hn : notifies s.q o = true
    · rw [if_pos hn]; exact Nat.succ_pos _
    · have hn' : notifies s.q o = false := by simpa using hn
      rw [if_neg hn]
      by_cases he : waiting s.q = []
      · exact absurd (quiet_step ha o hok hf hn' he) hne
      · exact h3 hm he hs
  | notify =>
    simp only [waitIds, List.append_nil, Waits.step]
    split
    · exact h
    · refine ⟨⟨a, ha⟩, ?_, ?_⟩
      · intro max snap hw
        exact ⟨(h.trying max snap hw).1, Nat.le_succ_of_le (h.trying max snap hw).2⟩
      · intro max snap hw
        obtain ⟨h1, h2, h3⟩ := h.asleep max snap hw
        refine ⟨h1, Nat.le_succ_of_le h2, ?_⟩
        intro hm hne hs
        simp only at hs
        omega
  | enter max =>
    simp only [waitIds, List.append_nil, Waits.step]
    refine ⟨⟨a, ha⟩, ?_, ?_⟩
    · intro m snap hw
      rcases List.mem_append.1 hw with hw | hw
      · exact h.trying m snap hw
      · injection List.mem_singleton.1 hw with h1 h2
        rw [h1, h2]; exact ⟨hok, Nat.le_refl _⟩
    · intro m snap hw
      rcases List.mem_append.1 hw with hw | hw
      · exact h.asleep m snap hw
      · exact nomatch List.mem_singleton.1 hw
  | try_ i now late =>
    simp only [waitIds, List.append_nil, Waits.step]
    split
    · next max snap hget =>
      obtain ⟨hsz, hsn⟩ := h.trying max snap (List.mem_of_getElem? hget)
      have hop : (Op.consume max now).ok := hsz
      have hstep := (ha.stepU (op := .consume max now) hop (by simp [Op.pushId])).1
      simp only [Op.pushId, List.append_nil] at hstep
      have hquiet : waiting s.q = [] → waiting (Queue.step s.q (.consume max now)).1 = [] :=
        quiet_step ha _ hop (by simp [Op.pushId]) rfl
      obtain ⟨l, hl, hl0⟩ := consume_takes ha (now := now) hsz
      have old : ∀ m sn, .asleep m sn ∈ s.waiters → m * msgSize ≤ isizeMax ∧ sn ≤ s.counter ∧
          (0 < m → waiting (Queue.step s.q (.consume max now)).1 ≠ [] → sn = s.counter → 0 < s.notifying) := by
        intro m sn hw
        obtain ⟨h1, h2, h3⟩ := h.asleep m sn hw
        exact ⟨h1, h2, fun hm hne hs => h3 hm (fun hh => hne (hquiet hh)) hs⟩
      rw [hl]
      cases l with
      | nil =>
        refine ⟨⟨_, hstep⟩, ?_, ?_⟩
        · intro m sn hw
          rcases mem_set hw with hw | hw
          · cases late <;> cases hw
          · exact h.trying m sn hw
        · intro m sn hw
          rcases mem_set hw with hw | hw
          · cases late with
            | true => cases hw
            | false =>
              injection hw with h1 h2
              subst h1 h2
              exact ⟨hsz, hsn, fun hm hne _ => absurd (hquiet (hl0 rfl hm)) hne⟩
          · exact old m sn hw
      | cons x t =>
        refine ⟨⟨_, hstep⟩, ?_, ?_⟩
        · intro m sn hw
          rcases mem_set hw with hw | hw
          · cases hw
          · exact h.trying m sn hw
        · intro m sn hw
          rcases mem_set hw with hw | hw
          · cases hw
          · exact old m sn hw
    · exact h
  | wake i =>
    simp only [waitIds, List.append_nil, Waits.step]
    split
    · next max snap hget =>
      split
      · refine ⟨⟨a, ha⟩, ?_, ?_⟩
        · intro m sn hw
          rcases mem_set hw with hw | hw
          · injection hw with h1 h2
            rw [h1, h2]
            exact ⟨(h.asleep max snap (List.mem_of_getElem? hget)).1, Nat.le_refl _⟩
          · exact h.trying m sn hw
        · intro m sn hw
          rcases mem_set hw with hw | hw
          · cases hw
          · exact h.asleep m sn hw
      · exact h
    · exact h
  | timeout i =>
    simp only [waitIds, List.append_nil, Waits.step]
    split
    · refine ⟨⟨a, ha⟩, ?_, ?_⟩
      · intro m sn hw
        rcases mem_set hw with hw | hw
        · cases hw
        · exact h.trying m sn hw
      · intro m sn hw
        rcases mem_set hw with hw | hw
        · cases hw
        · exact h.asleep m sn hw
    · exact h

theorem waitIds_cons (e : WEvent) (t : List WEvent) : waitIds (e :: t) = waitIds [e] ++ waitIds t := by
  cases e with
  | op o => cases o <;> rfl
  | _ => rfl

theorem WaitInv.run : ∀ (es : List WEvent) {s : Waits} {used : List Id}, WaitInv s used → ValidSched es →
    (∀ i ∈ waitIds es, i ∉ used) → WaitInv (s.run es) (used ++ waitIds es) := by
  intro es
  induction es with
  | nil => intro s used h _ _; simpa [waitIds, Waits.run] using h
  | cons e t ih =>
    intro s used h hv hf
    obtain ⟨hv1, hv2⟩ := hv
    rw [waitIds_cons] at hv2 hf ⊢
    have hd := List.nodup_append.1 hv2
    have h1 := h.step e (hv1 e (List.mem_cons_self ..)) (fun i hi => hf i (List.mem_append_left _ hi))
    have := ih h1 ⟨fun x hx => hv1 x (List.mem_cons_of_mem _ hx), hd.2.1⟩ (by
      intro i hi hu
      rcases List.mem_append.1 hu with hu | hu
      · exact hf i (List.mem_append_right _ hi) hu
      · exact hd.2.2 i hu i hi rfl)
    rw [← List.append_assoc]
    exact this

end Verif.Queue
