import Verif.Proofs.Rpc7
import Verif.Proofs.QueueLives
import Verif.Proofs.Command
import Verif.Proofs.StreamFile
import Verif.Spec.QueueRpc

/-!
# Lemmas about the queues behind the network
-/

namespace Verif.Rpc

open Verif Verif.Wire Verif.Sdk

variable {E I : Type}

/-! ### Acts -/

theorem actsFrom_append (past a b : List (Obs I)) : actsFrom past (a ++ b) = actsFrom past a ++ actsFrom (past ++ a) b := by
  induction a generalizing past with
  | nil => simp [actsFrom]
  | cons o a ih => simp [actsFrom, ih]

theorem acts_append (a b : List (Obs I)) : acts (a ++ b) = acts a ++ actsFrom a b := by
  unfold acts; rw [actsFrom_append]; simp

theorem acts_snoc (a : List (Obs I)) (o : Obs I) : acts (a ++ [o]) = acts a ++ (actOf a o).toList := by
  rw [acts_append]; simp [actsFrom]

theorem actsFrom_split {past tr : List (Obs I)} {u w : List (Act I)} {a : Act I} (h : actsFrom past tr = u ++ a :: w) :
    ∃ x o y, tr = x ++ o :: y ∧ actsFrom past x = u ∧ actOf (past ++ x) o = some a ∧ actsFrom (past ++ x ++ [o]) y = w := by
  induction tr generalizing past u with
  | nil => cases u <;> cases h
  | cons o tr ih =>
    simp only [actsFrom] at h
    cases ha : actOf past o with
    | none =>
      rw [ha] at h
      simp only [Option.toList, List.nil_append] at h
      obtain ⟨x, o', y, h1, h2, h3, h4⟩ := ih h
      refine ⟨o :: x, o', y, by rw [h1]; rfl, ?_, by simpa using h3, by simpa using h4⟩
      simp only [actsFrom, ha, Option.toList, List.nil_append]; exact h2
    | some b =>
      rw [ha] at h
      simp only [Option.toList, List.singleton_append] at h
      cases u with
      | nil =>
        simp only [List.nil_append, List.cons.injEq] at h
        obtain ⟨rfl, h⟩ := h
        exact ⟨[], o, tr, rfl, rfl, by simpa using ha, by simpa using h⟩
      | cons c u =>
        simp only [List.cons_append, List.cons.injEq] at h
        obtain ⟨rfl, h⟩ := h
        obtain ⟨x, o', y, h1, h2, h3, h4⟩ := ih h
        refine ⟨o :: x, o', y, by rw [h1]; rfl, ?_, by simpa using h3, by simpa using h4⟩
        simp only [actsFrom, ha, Option.toList, List.singleton_append, h2]

theorem acts_split {tr : List (Obs I)} {u w : List (Act I)} {a : Act I} (h : acts tr = u ++ a :: w) :
    ∃ x o y, tr = x ++ o :: y ∧ acts x = u ∧ actOf x o = some a ∧ actsFrom (x ++ [o]) y = w := by
  obtain ⟨x, o, y, h1, h2, h3, h4⟩ := actsFrom_split h
  exact ⟨x, o, y, h1, h2, by simpa using h3, by simpa using h4⟩

/-! ### Events of the queue manager -/

section
variable (batch : Nat) (supply : Nat → Queue.Id) (bg : I → Option Queue.MEvent)

/-- What an act does to the queues, when `made` ids have been made. -/
def eventOf (made : Nat) : Act I → Option Queue.MEvent
  | .did _ cmd now _ => queueCall batch (supply made) now cmd
  | .ticked x => bg x

def events (made : Nat) : List (Act I) → List Queue.MEvent
  | [] => []
  | a :: t => (eventOf batch supply bg made a).toList ++ events (made + if isPush a then 1 else 0) t

theorem events_append (made : Nat) (a b : List (Act I)) :
    events batch supply bg made (a ++ b) = events batch supply bg made a ++ events batch supply bg (made + a.countP isPush) b := by
  induction a generalizing made with
  | nil => simp [events]
  | cons x a ih =>
    simp only [List.cons_append, events, ih, List.append_assoc, List.countP_cons]
    congr 2
    rw [Nat.add_right_comm, Nat.add_assoc]

theorem events_split {made : Nat} {acts : List (Act I)} {h₁ h₂ : List Queue.MEvent} {e : Queue.MEvent}
    (h : events batch supply bg made acts = h₁ ++ e :: h₂) :
    ∃ u a w, acts = u ++ a :: w ∧ events batch supply bg made u = h₁ ∧ eventOf batch supply bg (made + u.countP isPush) a = some e ∧
      events batch supply bg (made + u.countP isPush + if isPush a then 1 else 0) w = h₂ := by
  induction acts generalizing made h₁ with
  | nil => cases h₁ <;> cases h
  | cons b t ih =>
    simp only [events] at h
    cases hb : eventOf batch supply bg made b with
    | none =>
      rw [hb] at h
      obtain ⟨u, a, w, h1, h2, h3, h4⟩ := ih h
      have hn : made + (b :: u).countP isPush = (made + if isPush b then 1 else 0) + u.countP isPush := by
        rw [List.countP_cons]; split <;> simp_all <;> omega
      refine ⟨b :: u, a, w, by rw [h1]; rfl, ?_, by rw [hn]; exact h3, by rw [hn]; exact h4⟩
      simp only [events, hb, Option.toList, List.nil_append]; exact h2
    | some x =>
      rw [hb] at h
      cases h₁ with
      | nil =>
        simp only [Option.toList, List.singleton_append, List.nil_append, List.cons.injEq] at h
        obtain ⟨rfl, h⟩ := h
        exact ⟨[], b, t, rfl, rfl, by simpa using hb, by simpa using h⟩
      | cons y h₁ =>
        simp only [Option.toList, List.singleton_append, List.cons_append, List.cons.injEq] at h
        obtain ⟨rfl, h⟩ := h
        obtain ⟨u, a, w, h1, h2, h3, h4⟩ := ih h
        have hn : made + (b :: u).countP isPush = (made + if isPush b then 1 else 0) + u.countP isPush := by
          rw [List.countP_cons]; split <;> simp_all <;> omega
        refine ⟨b :: u, a, w, by rw [h1]; rfl, ?_, by rw [hn]; exact h3, by rw [hn]; exact h4⟩
        simp only [events, hb, Option.toList, List.singleton_append, h2]

end

theorem makesId_call {batch now : Nat} {id : Queue.Id} {cmd : Cmd} {e : Queue.MEvent} (h : queueCall batch id now cmd = some e) {l : Nat}
    {r : Option Response} : makesId e = isPush (Act.did l cmd now r : Act I) := by
  cases cmd <;> simp only [queueCall, Option.some.injEq, reduceCtorEq] at h <;> subst h <;> rfl

theorem call_isSome {batch now : Nat} {id : Queue.Id} {cmd : Cmd} : (queueCall batch id now cmd).isSome = isQueue cmd := by
  cases cmd <;> rfl

/-- The queues after a trace are the queues after its events. -/
theorem queues_state {srv : Server E I} {cfg : Queue.Config} {batch : Nat} {supply : Nat → Queue.Id} {part : E → Queues}
    {bg : I → Option Queue.MEvent} (hp : QueueHost srv cfg batch supply part bg) {e0 : E} (h0 : part e0 = {}) (tr : List (Obs I)) :
    part (state srv e0 tr) = ⟨(Queue.Mgr.new.run cfg (events batch supply bg 0 (acts tr))).1, (acts tr).countP isPush⟩ := by
  induction tr using Sdk.snoc_ind with
  | h0 => exact h0
  | h1 tr o ih =>
    rw [state_snoc, acts_snoc, events_append, Queue.Mgr.run_append, List.countP_append, Nat.zero_add]
    generalize state srv e0 tr = e at ih
    generalize (Queue.Mgr.new.run cfg (events batch supply bg 0 (acts tr))).1 = m at ih ⊢
    generalize (acts tr).countP isPush = k at ih ⊢
    cases o with
    | executed l f now r =>
      simp only [effect, actOf]
      cases hc : cmdAt l f.id tr with
      | none => exact ih
      | some cmd =>
        simp only [Option.map_some, Option.toList, events, eventOf, List.append_nil, List.countP_cons, List.countP_nil, Nat.zero_add]
        by_cases hs : isQueue cmd = true
        · have h2 := (Prod.mk.inj (hp.exec l now cmd e hs)).1
          rw [h2, ih]
          simp only [queueExec]
          cases hq : queueCall batch (supply k) now cmd with
          | none => rw [← call_isSome (batch := batch) (now := now) (id := supply k), hq] at hs; cases hs
          | some ev =>
            simp only [Option.toList, Queue.Mgr.run]
            rw [makesId_call (I := I) hq (l := l) (r := r)]
        · have hs' : isQueue cmd = false := by simpa using hs
          rw [hp.other l now cmd e hs', ih]
          have hq : queueCall batch (supply k) now cmd = none := by
            rw [← Option.isNone_iff_eq_none, ← Option.not_isSome, call_isSome, hs']; rfl
          have hpush : isPush (Act.did l cmd now r : Act I) = false := by
            cases cmd <;> first | rfl | cases hs'
          rw [hq, hpush]; rfl
    | ticked x =>
      simp only [effect, actOf, Option.toList, events, eventOf, List.append_nil, hp.tick, ih]
      cases bg x with
      | none => rfl
      | some ev => rfl
    | called => exact ih
    | fired => exact ih
    | pushed => exact ih
    | settled => exact ih

/-- An answer of the server in a run, in terms of the acts before. -/
theorem act_exec (pr : Printer) {srv : Server E I} {cfg : Queue.Config} {batch : Nat} {supply : Nat → Queue.Id} {part : E → Queues}
    {bg : I → Option Queue.MEvent} (hp : QueueHost srv cfg batch supply part bg) {e0 : E} (h0 : part e0 = {}) (es : List (Ev I))
    (ho : Ordinary pr srv ((World.init e0).run pr srv es).2) {u w : List (Act I)} {l now : Nat} {cmd : Cmd} {r : Option Response}
    (hs : acts ((World.init e0).run pr srv es).2 = u ++ .did l cmd now r :: w) (hq : isQueue cmd = true) :
    (r = (queueExec cfg batch supply now cmd ⟨(Queue.Mgr.new.run cfg (events batch supply bg 0 u)).1, u.countP isPush⟩).2) ∧
    cmd.Fits ∧ ∀ d, r = some (.data d) → d.length < 2 ^ 32 := by
  obtain ⟨x, o, y, h1, h2, h3, h4⟩ := acts_split hs
  cases o with
  | executed l' f now' r' =>
    simp only [actOf] at h3
    obtain ⟨cmd', hc, he⟩ := Option.map_eq_some_iff.1 h3
    injection he with e1 e2 e3 e4
    subst e1 e2 e3 e4
    obtain ⟨hi, hf⟩ := holds_run pr srv e0 es ho
    obtain ⟨cmd'', k1, _, k3⟩ := hf.shown x _ y h1
    rw [hc] at k1
    injection k1 with k1
    subst k1
    have this : (srv.exec l' now' cmd' (state srv e0 x)).2 = (queueExec cfg batch supply now' cmd' (part (state srv e0 x))).2 :=
      congrArg Prod.snd (hp.exec l' now' cmd' (state srv e0 x) hq)
    refine ⟨?_, ?_, ?_⟩
    · exact k3.trans (by rw [this, queues_state hp h0, h2])
    · obtain ⟨o', hm, hw⟩ := cmdAt_mem hc
      have : o'.cmd? = some cmd' := by
        cases o' <;> simp only [Obs.wrote, reduceCtorEq] at hw <;> split at hw <;> first | (injection hw with hw; subst hw; rfl) | cases hw
      exact (ho.cmds o' (by rw [h1]; exact List.mem_append.2 (.inl hm)) cmd' this).1
    · intro d hd
      subst hd
      have := ho.answers l' f now' (.data d) (by rw [h1]; simp)
      simp only [Outbound.frame, Response.wire, List.length_cons] at this
      omega
  | ticked x => simp [actOf] at h3
  | called => cases h3
  | fired => cases h3
  | pushed => cases h3
  | settled => cases h3

/-! ### Ids and batches on the wire -/

theorem uuid_length (id : Queue.Id) : (uuidBytes id).length = 16 := by
  simp [uuidBytes, be64_length]

theorem uuid_val {id : Nat} (h : id < 2 ^ 128) : beVal (uuidBytes id) = id := by
  unfold uuidBytes
  have h1 : id / 2 ^ 64 < 2 ^ 64 := by omega
  rw [beVal_append, beVal_be64, beVal_be64, be64_length, Nat.mod_eq_of_lt h1]
  omega

theorem val_uuid {b : Bytes} (h : b.length = 16) : uuidBytes (beVal b) = b := by
  have hb : b = b.take 8 ++ b.drop 8 := (List.take_append_drop 8 b).symm
  have h1 : (b.take 8).length = 8 := by simp [h]
  have h2 : (b.drop 8).length = 8 := by simp [h]
  have hv : beVal b = beVal (b.take 8) * 256 ^ 8 + beVal (b.drop 8) := by rw [hb, beVal_append, ← hb, h2]
  have hlt : beVal (b.drop 8) < 256 ^ 8 := by have := beVal_lt (b.drop 8); rw [h2] at this; exact this
  unfold uuidBytes
  have e1 : beVal b / 2 ^ 64 = beVal (b.take 8) := by rw [hv]; omega
  have e2 : be64 (beVal b) = be64 (beVal (b.drop 8)) := by
    have hm : ∀ v, be64 (v % 2 ^ 64) = be64 v := by
      intro v
      unfold be64
      rw [← Stream.be32_mod (v % 2 ^ 64 / 2 ^ 32), ← Stream.be32_mod (v / 2 ^ 32), ← Stream.be32_mod (v % 2 ^ 64), ← Stream.be32_mod v]
      congr 2 <;> omega
    rw [← hm (beVal b)]
    congr 1
    rw [hv]; omega
  rw [e1, e2, Stream.be64_beVal h1, Stream.be64_beVal h2]
  exact hb.symm

theorem uuid_inj {i j : Queue.Id} (hi : i < 2 ^ 128) (hj : j < 2 ^ 128) (h : uuidBytes i = uuidBytes j) : i = j := by
  rw [← uuid_val hi, ← uuid_val hj, h]

theorem readMsgs_wire (msgs : List (Bytes × Bytes)) (hm : ∀ m ∈ msgs, m.1.length = 16 ∧ m.2.length < 2 ^ 32) :
    readMsgs msgs.length (msgs.flatMap (fun m => m.1 ++ be32 m.2.length ++ m.2)) = msgs := by
  induction msgs with
  | nil => rfl
  | cons m t ih =>
    obtain ⟨h1, h2⟩ := hm m (List.mem_cons_self ..)
    simp only [List.length_cons, readMsgs, List.flatMap_cons]
    generalize hr : t.flatMap (fun m => m.1 ++ be32 m.2.length ++ m.2) = rest
    have hk : ((m.1 ++ be32 m.2.length ++ m.2 ++ rest).drop 16).take 4 = be32 m.2.length := by
      rw [List.append_assoc, List.append_assoc, ← h1, List.drop_left, ← be32_length m.2.length, List.take_left]
    rw [hk, beVal_be32_lt h2]
    have h20 : (m.1 ++ be32 m.2.length).length = 20 := by simp [h1, be32_length]
    have hd : (m.1 ++ be32 m.2.length ++ m.2 ++ rest).drop 20 = m.2 ++ rest := by
      rw [List.append_assoc, ← h20, List.drop_left]
    have ht : (m.1 ++ be32 m.2.length ++ m.2 ++ rest).take 16 = m.1 := by
      rw [List.append_assoc, List.append_assoc, ← h1, List.take_left]
    rw [ht, ← List.drop_drop, hd, List.take_left, List.drop_left, ← hr, ih (fun m hm' => hm m (List.mem_cons_of_mem _ hm'))]

theorem batch_length (msgs : List (Bytes × Bytes)) :
    msgs.length ≤ (wireConsume msgs).length ∧ ∀ m ∈ msgs, m.2.length ≤ (wireConsume msgs).length := by
  unfold wireConsume
  rw [List.length_append, be32_length]
  have : msgs.length ≤ (msgs.flatMap (fun m => m.1 ++ be32 m.2.length ++ m.2)).length ∧
      ∀ m ∈ msgs, m.2.length ≤ (msgs.flatMap (fun m => m.1 ++ be32 m.2.length ++ m.2)).length := by
    induction msgs with
    | nil => simp
    | cons m t ih =>
      obtain ⟨i1, i2⟩ := ih
      simp only [List.flatMap_cons, List.length_append, List.length_cons, be32_length]
      refine ⟨by omega, ?_⟩
      intro x hx
      rcases List.mem_cons.1 hx with rfl | hx
      · omega
      · have := i2 x hx; omega
  obtain ⟨h1, h2⟩ := this
  exact ⟨by omega, fun m hm => by have := h2 m hm; omega⟩

/-- An answer that fits the wire is read back. -/
theorem handed_wire {msgs : List (Bytes × Bytes)} (hm : ∀ m ∈ msgs, m.1.length = 16) (hl : (wireConsume msgs).length < 2 ^ 32) :
    handed (some (.data (wireConsume msgs))) = msgs := by
  obtain ⟨h1, h2⟩ := batch_length msgs
  unfold handed
  dsimp only
  have e1 : (wireConsume msgs).take 4 = be32 msgs.length := by
    unfold wireConsume; rw [← be32_length msgs.length, List.take_left]
  have e2 : (wireConsume msgs).drop 4 = msgs.flatMap (fun m => m.1 ++ be32 m.2.length ++ m.2) := by
    unfold wireConsume; rw [← be32_length msgs.length, List.drop_left]
  rw [e1, e2, beVal_be32_lt (by omega)]
  exact readMsgs_wire msgs (fun m hx => ⟨hm m hx, by have := h2 m hx; omega⟩)

end Verif.Rpc
