import Verif.Proofs.StreamRpc
import Verif.Proofs.Rpc7

/-!
# Lemmas about the streams behind the network: acts and the life of one topic
-/

namespace Verif.Rpc

open Verif Verif.Wire Verif.Sdk
open Verif.Stream (Topic GErr Query)

variable {E I : Type} (env : Env) (bg : I → Option (Str × Stream.Ev))

/-- The streams after an act. -/
def Streams.act (s : Streams) : Act I → Streams
  | .did l cmd now _ => if isStream cmd then (streamExec env l now cmd s).1 else s
  | .ticked x => match bg x with | some (n, ev) => s.background env.crc n ev | none => s

/-- The streams after the acts of a run. -/
def Streams.after (A : List (Act I)) : Streams := A.foldl (Streams.act env bg) {}

theorem after_snoc (A : List (Act I)) (a : Act I) : Streams.after env bg (A ++ [a]) = (Streams.after env bg A).act env bg a := by
  simp [Streams.after]

theorem after_append (A B : List (Act I)) : Streams.after env bg (A ++ B) = B.foldl (Streams.act env bg) (Streams.after env bg A) := by
  simp [Streams.after]

/-- The streams after a trace are the streams after its acts. -/
theorem streams_state {srv : Server E I} {part : E → Streams} {env : Env} {bg : I → Option (Str × Stream.Ev)} (hp : StreamPart srv env part bg)
    {e0 : E} (h0 : part e0 = {}) (tr : List (Obs I)) : part (state srv e0 tr) = Streams.after env bg (acts tr) := by
  induction tr using Sdk.snoc_ind with
  | h0 => exact h0
  | h1 tr o ih =>
    rw [state_snoc, acts_snoc]
    generalize state srv e0 tr = e at ih
    cases o with
    | executed l f now r =>
      simp only [effect, actOf]
      cases hc : cmdAt l f.id tr with
      | none => simpa using ih
      | some cmd =>
        simp only [Option.map_some, Option.toList, after_snoc, Streams.act]
        by_cases hs : isStream cmd = true
        · rw [if_pos hs, ← ih, ← hp.exec l now cmd e hs]
        · rw [if_neg hs, hp.other l now cmd e (by simpa using hs), ih]
    | ticked x =>
      simp only [effect, actOf, Option.toList, after_snoc, Streams.act, hp.tick, ih]
      cases bg x <;> rfl
    | called => simpa [actOf, effect] using ih
    | fired => simpa [actOf, effect] using ih
    | pushed => simpa [actOf, effect] using ih
    | settled => simpa [actOf, effect] using ih

/-- A list of acts in which every stream command has the answer that the acts before it imply. -/
structure Streamed (env : Env) (bg : I → Option (Str × Stream.Ev)) (A : List (Act I)) : Prop where
  exec : ∀ u l cmd now r w, A = u ++ .did l cmd now r :: w → isStream cmd = true →
    r = (streamExec env l now cmd (Streams.after env bg u)).2 ∧ cmd.Fits ∧ ∀ d, r = some (.data d) → d.length < 2 ^ 32
  tasks : ∀ x n ev, bg x = some (n, ev) → inBackground ev = true
  ok : env.Ok A
  small : Small A

theorem streamed (pr : Printer) {srv : Server E I} {env : Env} {part : E → Streams} {bg : I → Option (Str × Stream.Ev)} (hp : StreamPart srv env part bg)
    {e0 : E} (h0 : part e0 = {}) (es : List (Ev I)) (ho : Ordinary pr srv ((World.init e0).run pr srv es).2)
    (hk : env.Ok (acts ((World.init e0).run pr srv es).2)) (hsm : Small (acts ((World.init e0).run pr srv es).2)) :
    Streamed env bg (acts ((World.init e0).run pr srv es).2) := by
  refine ⟨?_, hp.tasks, hk, hsm⟩
  intro u l cmd now r w hs hq
  obtain ⟨x, o, y, h1, h2, h3, h4⟩ := acts_split hs
  cases o with
  | executed l' f now' r' =>
    simp only [actOf] at h3
    obtain ⟨cmd', hc, he⟩ := Option.map_eq_some_iff.1 h3
    injection he with e1 e2 e3 e4
    subst e1 e2 e3 e4
    obtain ⟨hi, hf⟩ := holds_run pr srv e0 es ho
    obtain ⟨cmd'', k1, _, k3⟩ := hf.shown x _ y h1
    rw [hc] at k1
    injection k1 with k1
    subst k1
    have this : (srv.exec l' now' cmd' (state srv e0 x)).2 = (streamExec env l' now' cmd' (part (state srv e0 x))).2 :=
      congrArg Prod.snd (hp.exec l' now' cmd' (state srv e0 x) hq)
    refine ⟨?_, ?_, ?_⟩
    · exact k3.trans (by rw [this, streams_state hp h0, h2])
    · obtain ⟨o', hm, hw⟩ := cmdAt_mem hc
      have : o'.cmd? = some cmd' := by
        cases o' <;> simp only [Obs.wrote, reduceCtorEq] at hw <;> split at hw <;> first | (injection hw with hw; subst hw; rfl) | cases hw
      exact (ho.cmds o' (by rw [h1]; exact List.mem_append.2 (.inl hm)) cmd' this).1
    · intro d hd
      subst hd
      have := ho.answers l' f now' (.data d) (by rw [h1]; simp)
      simp only [Outbound.frame, Response.wire, List.length_cons] at this
      omega
  | ticked x => simp [actOf] at h3
  | called => cases h3
  | fired => cases h3
  | pushed => cases h3
  | settled => cases h3

/-! ### The life of a topic -/

/-- What an act does to topic `n`, which is `t`, as the `k`-th stream command. -/
def actSteps (n : Str) (k : Nat) (t : Topic) : Act I → List Stream.Ev
  | .did l cmd now _ => if onTopic cmd = some n then streamSteps env k l now t cmd else []
  | .ticked x =>
    match bg x with
    | some (m, ev) => if m = n ∧ fetchResult (t.step env.crc ev).2 = none then [ev] else []
    | none => []

/-- What a list of acts does to topic `n`. -/
def stepsFrom (n : Str) : Nat → Topic → List (Act I) → List Stream.Ev
  | _, _, [] => []
  | k, t, a :: v => actSteps env bg n k t a ++ stepsFrom n (k + if isStreamAct a then 1 else 0) (t.run env.crc (actSteps env bg n k t a)) v

theorem stepsFrom_append (n : Str) (v w : List (Act I)) : ∀ (k : Nat) (t : Topic), stepsFrom env bg n k t (v ++ w) =
    stepsFrom env bg n k t v ++ stepsFrom env bg n (k + v.countP isStreamAct) (t.run env.crc (stepsFrom env bg n k t v)) w := by
  induction v with
  | nil => intro k t; rfl
  | cons a v ih =>
    intro k t
    simp only [List.cons_append, stepsFrom, ih, List.append_assoc, Stream.run_append, List.countP_cons]
    congr 3
    omega

/-- An event of the life of a topic belongs to an act. -/
theorem stepsFrom_split (n : Str) : ∀ (v : List (Act I)) (k : Nat) (t : Topic) (p s : List Stream.Ev) (e : Stream.Ev),
    stepsFrom env bg n k t v = p ++ e :: s → ∃ v₁ a v₂ p₁ s₁, v = v₁ ++ a :: v₂ ∧ p = stepsFrom env bg n k t v₁ ++ p₁ ∧
      actSteps env bg n (k + v₁.countP isStreamAct) (t.run env.crc (stepsFrom env bg n k t v₁)) a = p₁ ++ e :: s₁ := by
  intro v
  induction v with
  | nil => intro k t p s e h; cases p <;> cases h
  | cons a v ih =>
    intro k t p s e h
    simp only [stepsFrom] at h
    rcases List.append_eq_append_iff.1 h with ⟨c, h1, h2⟩ | ⟨c, h1, h2⟩
    · obtain ⟨v1, b, v2, p1, s1, e1, e2, e3⟩ := ih _ _ c s e h2
      refine ⟨a :: v1, b, v2, p1, s1, by rw [e1]; rfl, ?_, ?_⟩
      · rw [h1, e2]; simp [stepsFrom]
      · have hk : k + (a :: v1).countP isStreamAct = (k + if isStreamAct a then 1 else 0) + v1.countP isStreamAct := by
          rw [List.countP_cons]; omega
        rw [hk]
        simp only [stepsFrom, Stream.run_append]
        exact e3
    · cases c with
      | nil =>
        simp only [List.append_nil] at h1
        simp only [List.nil_append] at h2
        obtain ⟨v1, b, v2, p1, s1, e1, e2, e3⟩ := ih _ _ [] s e h2.symm
        refine ⟨a :: v1, b, v2, p1, s1, by rw [e1]; rfl, ?_, ?_⟩
        · simp only [stepsFrom, List.append_assoc, ← e2, List.append_nil]; exact h1.symm
        · have hk : k + (a :: v1).countP isStreamAct = (k + if isStreamAct a then 1 else 0) + v1.countP isStreamAct := by
            rw [List.countP_cons]; omega
          rw [hk]
          simp only [stepsFrom, Stream.run_append]
          exact e3
      | cons x c =>
        simp only [List.cons_append, List.cons.injEq] at h2
        obtain ⟨rfl, h2⟩ := h2
        exact ⟨[], a, v, p, c, rfl, rfl, by simpa [stepsFrom, Topic.run] using h1⟩

theorem act_count (s : Streams) (a : Act I) : (s.act env bg a).count = s.count + if isStreamAct a then 1 else 0 := by
  cases a with
  | ticked x =>
    simp only [Streams.act, isStreamAct]
    cases bg x with
    | none => rfl
    | some y =>
      simp only [Streams.background]
      split
      · rfl
      · split <;> rfl
  | did l cmd now r =>
    simp only [Streams.act, isStreamAct]
    split
    · next h =>
      cases cmd <;> first | rfl | (simp only [isStream, Bool.false_eq_true] at h; done) |
        (simp only [streamExec, onTopic, isStream, if_true]; split <;> rfl)
    · next h => simp [h]

/-- What an act does to the topic. -/
theorem act_topic {n : Str} {s : Streams} {t : Topic} (ht : mget s.topics n = some t) (a : Act I) (hd : ¬ dropsTopic n a) :
    mget (s.act env bg a).topics n = some (t.run env.crc (actSteps env bg n s.count t a)) := by
  cases a with
  | ticked x =>
    simp only [Streams.act, actSteps]
    cases hx : bg x with
    | none => exact ht
    | some y =>
      obtain ⟨m, ev⟩ := y
      simp only [Streams.background]
      by_cases hm : m = n
      · subst hm
        simp only [ht, true_and]
        cases hf : fetchResult (t.step env.crc ev).2 with
        | none => simp [Topic.run, mget_mset_same]
        | some r => simpa [Topic.run] using ht
      · simp only [hm, false_and, if_false, Topic.run]
        split
        · exact ht
        · split
          · exact ht
          · rw [mget_mset_ne _ _ (Ne.symm hm)]; exact ht
  | did l cmd now r =>
    have key : ∀ m, onTopic cmd = some m → isStream cmd = true →
        mget (match mget s.topics m with
          | none => ({ s with count := s.count + 1 }, some (Response.error (ascii "Topic not found")))
          | some t =>
            ({ topics := mset s.topics m (t.run env.crc (streamSteps env s.count l now t cmd)), count := s.count + 1 },
              streamAnswer t.log.next (Outs env.crc t (streamSteps env s.count l now t cmd)) cmd) : Streams × Option Response).1.topics n =
        some (t.run env.crc (if onTopic cmd = some n then streamSteps env s.count l now t cmd else [])) := by
      intro m hm _
      by_cases h : m = n
      · subst h
        simp only [ht, hm, if_true, mget_mset_same]
      · rw [if_neg (by rw [hm]; simpa using h)]
        simp only [Topic.run]
        split
        · exact ht
        · rw [mget_mset_ne _ _ (Ne.symm h)]; exact ht
    simp only [Streams.act, actSteps]
    split
    · next hs =>
      cases cmd with
      | sCreate m o =>
        simp only [streamExec, onTopic, reduceCtorEq, if_false, Topic.run]
        split
        · exact ht
        · next hn =>
          have : m ≠ n := by intro h; subst h; simp [mhas, ht] at hn
          rw [mget_mset_ne _ _ (Ne.symm this)]; exact ht
      | sDelete m =>
        simp only [streamExec, onTopic, reduceCtorEq, if_false, Topic.run]
        have : m ≠ n := by intro h; subst h; exact hd ⟨l, now, r, rfl⟩
        rw [mget_mdel_ne _ (Ne.symm this)]; exact ht
      | sExists m => simpa only [streamExec, onTopic, reduceCtorEq, if_false, Topic.run] using ht
      | sPub m pl => exact key m rfl rfl
      | sFetch m g c gen lim w => exact key m rfl rfl
      | sJoin g m => exact key m rfl rfl
      | sAck m g c gen sq => exact key m rfl rfl
      | sSeek m g e => exact key m rfl rfl
      | sLeave m g c gen => exact key m rfl rfl
      | _ => exact absurd hs (by simp [isStream])
    · next hs =>
      have : onTopic cmd = none := by cases cmd <;> first | rfl | exact absurd rfl hs
      simpa [this, Topic.run] using ht

theorem after_count (A : List (Act I)) : (Streams.after env bg A).count = A.countP isStreamAct := by
  induction A using Sdk.snoc_ind with
  | h0 => rfl
  | h1 A a ih => rw [after_snoc, act_count, ih, List.countP_append, List.countP_singleton]

/-- A topic lives on until it is deleted. -/
theorem life_run {n : Str} {u : List (Act I)} {t : Topic} (ht : mget (Streams.after env bg u).topics n = some t) (v : List (Act I))
    (hd : ∀ a ∈ v, ¬ dropsTopic n a) :
    mget (Streams.after env bg (u ++ v)).topics n = some (t.run env.crc (stepsFrom env bg n (u.countP isStreamAct) t v)) := by
  induction v using Sdk.snoc_ind with
  | h0 => simpa [stepsFrom, Topic.run] using ht
  | h1 v a ih =>
    have h := ih (fun a ha => hd a (by simp [ha]))
    rw [← List.append_assoc, after_snoc, act_topic env bg h a (hd a (by simp)), stepsFrom_append, Stream.run_append, after_count, List.countP_append]
    simp [stepsFrom]

/-- A topic that is not there is created by a create command only. -/
theorem act_absent {n : Str} {s : Streams} (ht : mget s.topics n = none) (a : Act I) :
    (∃ l o now r, a = .did l (.sCreate n o) now r ∧ mget (s.act env bg a).topics n = some (Topic.fresh env.crc (topicCfg env.sys o))) ∨
    mget (s.act env bg a).topics n = none := by
  cases a with
  | ticked x =>
    right
    simp only [Streams.act]
    cases hx : bg x with
    | none => exact ht
    | some y =>
      obtain ⟨m, ev⟩ := y
      simp only [Streams.background]
      split
      · exact ht
      · next t hm =>
        split
        · exact ht
        · have : m ≠ n := by intro h; subst h; rw [ht] at hm; cases hm
          rw [mget_mset_ne _ _ (Ne.symm this)]; exact ht
  | did l cmd now r =>
    have key : ∀ m (c : Cmd),
        mget (match mget s.topics m with
          | none => ({ s with count := s.count + 1 }, some (Response.error (ascii "Topic not found")))
          | some t =>
            ({ topics := mset s.topics m (t.run env.crc (streamSteps env s.count l now t c)), count := s.count + 1 },
              streamAnswer t.log.next (Outs env.crc t (streamSteps env s.count l now t c)) c) : Streams × Option Response).1.topics n = none := by
      intro m c
      split
      · exact ht
      · next t hm =>
        have : m ≠ n := by intro h; subst h; rw [ht] at hm; cases hm
        rw [mget_mset_ne _ _ (Ne.symm this)]; exact ht
    simp only [Streams.act]
    split
    · next hs =>
      cases cmd with
      | sCreate m o =>
        simp only [streamExec]
        by_cases hm : m = n
        · subst hm
          left
          refine ⟨l, o, now, r, rfl, ?_⟩
          simp [mhas, ht, mget_mset_same]
        · right
          split
          · exact ht
          · rw [mget_mset_ne _ _ (Ne.symm hm)]; exact ht
      | sDelete m =>
        right
        simp only [streamExec]
        by_cases hm : m = n
        · subst hm; exact mget_mdel_same ..
        · rw [mget_mdel_ne _ (Ne.symm hm)]; exact ht
      | sExists m => exact .inr ht
      | sPub m pl => exact .inr (key m _)
      | sFetch m g c gen lim w => exact .inr (key m _)
      | sJoin g m => exact .inr (key m _)
      | sAck m g c gen sq => exact .inr (key m _)
      | sSeek m g e => exact .inr (key m _)
      | sLeave m g c gen => exact .inr (key m _)
      | _ => exact absurd hs (by simp [isStream])
    · exact .inr ht

/-- The life of a topic: it was created when it was not there, and was not deleted since. -/
structure Born (env : Env) (bg : I → Option (Str × Stream.Ev)) (n : Str) (A u : List (Act I)) (o : StreamOpts) (v : List (Act I)) : Prop where
  split : ∃ l now r, A = u ++ .did l (.sCreate n o) now r :: v
  new : mget (Streams.after env bg u).topics n = none
  kept : ∀ a ∈ v, ¬ dropsTopic n a

theorem life_born {n : Str} {A : List (Act I)} {t : Topic} (ht : mget (Streams.after env bg A).topics n = some t) :
    ∃ u o v, Born env bg n A u o v := by
  induction A using Sdk.snoc_ind generalizing t with
  | h0 => cases ht
  | h1 A a ih =>
    rw [after_snoc] at ht
    cases h : mget (Streams.after env bg A).topics n with
    | none =>
      rcases act_absent env bg h a with ⟨l, o, now, r, rfl, _⟩ | h'
      · exact ⟨A, o, [], ⟨l, now, r, rfl⟩, h, fun _ h => nomatch h⟩
      · rw [h'] at ht; cases ht
    | some t' =>
      obtain ⟨u, o, v, ⟨l, now, r, rfl⟩, h2, h3⟩ := ih h
      by_cases hd : dropsTopic n a
      · obtain ⟨l', now', r', rfl⟩ := hd
        simp [Streams.act, isStream, streamExec, mget_mdel_same] at ht
      · refine ⟨u, o, v ++ [a], ⟨l, now, r, by simp⟩, h2, ?_⟩
        intro b hb
        rcases List.mem_append.1 hb with hb | hb
        · exact h3 b hb
        · rw [List.mem_singleton] at hb; subst hb; exact hd

/-- The topic of a life, and all that was done to it. -/
theorem Born.topic {env : Env} {bg : I → Option (Str × Stream.Ev)} {n : Str} {A u v : List (Act I)} {o : StreamOpts} (h : Born env bg n A u o v) :
    mget (Streams.after env bg A).topics n = some ((Topic.fresh env.crc (topicCfg env.sys o)).run env.crc
      (stepsFrom env bg n (u.countP isStreamAct + 1) (Topic.fresh env.crc (topicCfg env.sys o)) v)) := by
  obtain ⟨⟨l, now, r, rfl⟩, h2, h3⟩ := h
  have h4 : mget (Streams.after env bg (u ++ [.did l (.sCreate n o) now r])).topics n = some (Topic.fresh env.crc (topicCfg env.sys o)) := by
    rw [after_snoc]
    rcases act_absent env bg h2 (.did l (.sCreate n o) now r) with ⟨l', o', now', r', he, h5⟩ | h5
    · injection he with e1 e2 e3 e4
      injection e2 with e5 e6
      subst e6; exact h5
    · simp [Streams.act, isStream, streamExec, mhas, h2, mget_mset_same] at h5
  have h5 := life_run env bg h4 v h3
  rw [List.append_assoc, List.singleton_append] at h5
  rw [h5, List.countP_append]
  rfl

theorem Born.extend {env : Env} {bg : I → Option (Str × Stream.Ev)} {n : Str} {A u v : List (Act I)} {o : StreamOpts} (h : Born env bg n A u o v)
    {w : List (Act I)} (hd : ∀ a ∈ w, ¬ dropsTopic n a) : Born env bg n (A ++ w) u o (v ++ w) := by
  obtain ⟨⟨l, now, r, rfl⟩, h2, h3⟩ := h
  refine ⟨⟨l, now, r, by simp⟩, h2, ?_⟩
  intro a ha
  rcases List.mem_append.1 ha with ha | ha
  · exact h3 a ha
  · exact hd a ha

end Verif.Rpc
