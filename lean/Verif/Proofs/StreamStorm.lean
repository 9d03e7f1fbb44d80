import Verif.Spec.StreamCrash
import Verif.Proofs.StreamRpc5
import Verif.Proofs.StreamKept

/-!
# Lemmas about the streams behind the network across crashes: the life of one topic
-/

namespace Verif.Rpc

open Verif Verif.Wire Verif.Sdk
open Verif.Stream (Topic GErr Query Msg)

variable {E I : Type} {env : Env} {lossy : Bytes → Str} {bg : I → Option Job}

/-! ### Acts -/

theorem lived_snoc (A : List (Act I)) (a : Act I) : Streams.lived env lossy bg (A ++ [a]) = (Streams.lived env lossy bg A).live env lossy bg a := by
  simp [Streams.lived]

theorem live_crash {a : Act I} (h : breaks bg a) (s : Streams) : s.live env lossy bg a = s.crash env.crc lossy := by
  obtain ⟨x, rfl, hx⟩ := h
  simp [Streams.live, hx]

theorem live_act {a : Act I} (h : ¬ breaks bg a) (s : Streams) : s.live env lossy bg a = s.act env (stepOf bg) a := by
  cases a with
  | did l cmd now r => rfl
  | ticked x =>
    simp only [Streams.live, Streams.act, stepOf]
    cases hx : bg x with
    | none => rfl
    | some j =>
      cases j with
      | on n ev => rfl
      | crash => exact absurd ⟨x, rfl, hx⟩ h

theorem entry_simple {n : Str} (h : Paths.Simple n) : isEntry n = true := by
  obtain ⟨h1, h2, h3, h4⟩ := h
  simp only [isEntry, Bool.and_eq_true, bne_iff_ne, ne_eq, Bool.not_eq_true']
  refine ⟨⟨⟨?_, h1⟩, h2⟩, h3⟩
  simpa [Paths.slash] using h4

theorem crash_topics (crc : Bytes → Nat) (lossy : Bytes → Str) (s : Streams) (n : Str) :
    mget (s.crash crc lossy).topics n = if isEntry n then (mget s.topics n).map (fun t => t.restart crc lossy) else none := by
  unfold Streams.crash
  simp only
  induction s.topics with
  | nil => simp
  | cons x l ih =>
    rw [List.filter_cons]
    by_cases hx : isEntry x.1 = true
    · rw [if_pos hx]
      simp only [List.map_cons, mget_cons]
      by_cases he : x.1 = n
      · rw [if_pos he, if_pos he, if_pos (he ▸ hx)]; rfl
      · rw [if_neg he, if_neg he]; exact ih
    · rw [if_neg hx, ih]
      simp only [mget_cons]
      by_cases he : x.1 = n
      · rw [if_neg (he ▸ hx), if_neg (he ▸ hx)]
      · rw [if_neg he]

theorem breaks_not_stream {a : Act I} (h : breaks bg a) : isStreamAct a = false := by
  obtain ⟨x, rfl, _⟩ := h; rfl

theorem lived_count (A : List (Act I)) : (Streams.lived env lossy bg A).count = A.countP isStreamAct := by
  induction A using Sdk.snoc_ind with
  | h0 => rfl
  | h1 A a ih =>
    rw [lived_snoc, List.countP_append, List.countP_singleton, ← ih]
    by_cases h : breaks bg a
    · rw [live_crash h, breaks_not_stream h]; rfl
    · rw [live_act h, act_count]

/-- The streams after a trace are the streams after its acts. -/
theorem lived_state {srv : Server E I} {part : E → Streams} (hp : StreamHost srv env lossy part bg) {e0 : E} (h0 : part e0 = {}) (tr : List (Obs I)) :
    part (state srv e0 tr) = Streams.lived env lossy bg (acts tr) := by
  induction tr using Sdk.snoc_ind with
  | h0 => exact h0
  | h1 tr o ih =>
    rw [state_snoc, acts_snoc]
    generalize state srv e0 tr = e at ih
    cases o with
    | executed l f now r =>
      simp only [effect, actOf]
      cases hc : cmdAt l f.id tr with
      | none => simpa using ih
      | some cmd =>
        simp only [Option.map_some, Option.toList, lived_snoc, Streams.live]
        by_cases hs : isStream cmd = true
        · rw [if_pos hs, ← ih, ← hp.exec l now cmd e hs]
        · rw [if_neg hs, hp.other l now cmd e (by simpa using hs), ih]
    | ticked x =>
      simp only [effect, actOf, Option.toList, lived_snoc, Streams.live, hp.tick, ih]
    | called => simpa [actOf, effect] using ih
    | fired => simpa [actOf, effect] using ih
    | pushed => simpa [actOf, effect] using ih
    | settled => simpa [actOf, effect] using ih

/-- A list of acts with crashes in which every stream command has the answer that the acts before it imply. -/
structure Weathered (env : Env) (lossy : Bytes → Str) (bg : I → Option Job) (A : List (Act I)) : Prop where
  exec : ∀ u l cmd now r w, A = u ++ .did l cmd now r :: w → isStream cmd = true →
    r = (streamExec env l now cmd (Streams.lived env lossy bg u)).2 ∧ cmd.Fits ∧ ∀ d, r = some (.data d) → d.length < 2 ^ 32
  tasks : Tasks (stepOf bg)
  ok : env.Ok A
  small : Small A
  calm : Calm env lossy bg A

theorem stepOf_tasks (h : ∀ x n ev, bg x = some (.on n ev) → inBackground ev = true) : Tasks (stepOf bg) := by
  intro x n ev hx
  unfold stepOf at hx
  split at hx
  · next m e hb => injection hx with hx; injection hx with h1 h2; subst h1 h2; exact h x _ _ hb
  · cases hx

theorem weathered (pr : Printer) {srv : Server E I} {part : E → Streams} (hp : StreamHost srv env lossy part bg)
    {e0 : E} (h0 : part e0 = {}) (es : List (Ev I)) (ho : Ordinary pr srv ((World.init e0).run pr srv es).2)
    (hk : env.Ok (acts ((World.init e0).run pr srv es).2)) (hsm : Small (acts ((World.init e0).run pr srv es).2))
    (hc : Calm env lossy bg (acts ((World.init e0).run pr srv es).2)) : Weathered env lossy bg (acts ((World.init e0).run pr srv es).2) := by
  refine ⟨?_, stepOf_tasks hp.tasks, hk, hsm, hc⟩
  intro u l cmd now r w hs hq
  obtain ⟨x, o, y, h1, h2, h3, h4⟩ := acts_split hs
  cases o with
  | executed l' f now' r' =>
    simp only [actOf] at h3
    obtain ⟨cmd', hc, he⟩ := Option.map_eq_some_iff.1 h3
    injection he with e1 e2 e3 e4
    subst e1 e2 e3 e4
    obtain ⟨hi, hf⟩ := holds_run pr srv e0 es ho
    obtain ⟨cmd'', k1, _, k3⟩ := hf.shown x _ y h1
    rw [hc] at k1
    injection k1 with k1
    subst k1
    have this : (srv.exec l' now' cmd' (state srv e0 x)).2 = (streamExec env l' now' cmd' (part (state srv e0 x))).2 :=
      congrArg Prod.snd (hp.exec l' now' cmd' (state srv e0 x) hq)
    refine ⟨?_, ?_, ?_⟩
    · exact k3.trans (by rw [this, lived_state hp h0, h2])
    · obtain ⟨o', hm, hw⟩ := cmdAt_mem hc
      have : o'.cmd? = some cmd' := by
        cases o' <;> simp only [Obs.wrote, reduceCtorEq] at hw <;> split at hw <;> first | (injection hw with hw; subst hw; rfl) | cases hw
      exact (ho.cmds o' (by rw [h1]; exact List.mem_append.2 (.inl hm)) cmd' this).1
    · intro d hd
      subst hd
      have := ho.answers l' f now' (.data d) (by rw [h1]; simp)
      simp only [Outbound.frame, Response.wire, List.length_cons] at this
      omega
  | ticked x => simp [actOf] at h3
  | called => cases h3
  | fired => cases h3
  | pushed => cases h3
  | settled => cases h3

/-! ### Creation and deletion -/

/-- The life of a topic: it was created when it was not there, and was not deleted since. -/
structure Risen (env : Env) (lossy : Bytes → Str) (bg : I → Option Job) (n : Str) (A u : List (Act I)) (o : StreamOpts) (v : List (Act I)) : Prop where
  split : ∃ l now r, A = u ++ .did l (.sCreate n o) now r :: v
  new : mget (Streams.lived env lossy bg u).topics n = none
  kept : ∀ a ∈ v, ¬ dropsTopic n a

theorem lived_absent {n : Str} {A : List (Act I)} (h : mget (Streams.lived env lossy bg A).topics n = none) (a : Act I) :
    (∃ l o now r, a = .did l (.sCreate n o) now r ∧ mget (Streams.lived env lossy bg (A ++ [a])).topics n = some (newTopic env o)) ∨
    mget (Streams.lived env lossy bg (A ++ [a])).topics n = none := by
  rw [lived_snoc]
  by_cases hb : breaks bg a
  · right
    rw [live_crash hb, crash_topics, h]; simp
  · rw [live_act hb]; exact act_absent env (stepOf bg) h a

theorem life_risen {n : Str} {A : List (Act I)} {t : Topic} (ht : mget (Streams.lived env lossy bg A).topics n = some t) :
    ∃ u o v, Risen env lossy bg n A u o v := by
  induction A using Sdk.snoc_ind generalizing t with
  | h0 => cases ht
  | h1 A a ih =>
    cases h : mget (Streams.lived env lossy bg A).topics n with
    | none =>
      rcases lived_absent h a with ⟨l, o, now, r, rfl, _⟩ | h'
      · exact ⟨A, o, [], ⟨l, now, r, rfl⟩, h, fun _ h => nomatch h⟩
      · rw [h'] at ht; cases ht
    | some t' =>
      obtain ⟨u, o, v, ⟨l, now, r, rfl⟩, h2, h3⟩ := ih h
      by_cases hd : dropsTopic n a
      · obtain ⟨l', now', r', rfl⟩ := hd
        rw [lived_snoc] at ht
        simp [Streams.live, isStream, streamExec, mget_mdel_same] at ht
      · refine ⟨u, o, v ++ [a], ⟨l, now, r, by simp⟩, h2, ?_⟩
        intro b hb
        rcases List.mem_append.1 hb with hb | hb
        · exact h3 b hb
        · rw [List.mem_singleton] at hb; subst hb; exact hd

theorem Risen.prefix {n : Str} {A u v₁ v₂ : List (Act I)} {o : StreamOpts} (h : Risen env lossy bg n A u o (v₁ ++ v₂)) :
    ∃ w, A = w ++ v₂ ∧ Risen env lossy bg n w u o v₁ := by
  obtain ⟨l, now, r, rfl⟩ := h.split
  exact ⟨u ++ .did l (.sCreate n o) now r :: v₁, by simp, ⟨l, now, r, rfl⟩, h.new, fun a ha => h.kept a (List.mem_append.2 (.inl ha))⟩

theorem Risen.extend {n : Str} {A u v w : List (Act I)} {o : StreamOpts} (h : Risen env lossy bg n A u o v) (hd : ∀ a ∈ w, ¬ dropsTopic n a) :
    Risen env lossy bg n (A ++ w) u o (v ++ w) := by
  obtain ⟨l, now, r, rfl⟩ := h.split
  refine ⟨⟨l, now, r, by simp⟩, h.new, ?_⟩
  intro a ha
  rcases List.mem_append.1 ha with ha | ha
  · exact h.kept a ha
  · exact hd a ha

/-- A topic stays, whatever crashes, until it is deleted. -/
theorem lived_topic {n : Str} (hn : Paths.Simple n) {A : List (Act I)} {t : Topic} (ht : mget (Streams.lived env lossy bg A).topics n = some t) {a : Act I} (hd : ¬ dropsTopic n a) :
    mget (Streams.lived env lossy bg (A ++ [a])).topics n = some (t.restart env.crc lossy) ∧ breaks bg a ∨
    mget (Streams.lived env lossy bg (A ++ [a])).topics n = some (t.run env.crc (actSteps env (stepOf bg) n (A.countP isStreamAct) t a)) ∧ ¬ breaks bg a := by
  rw [lived_snoc]
  by_cases hb : breaks bg a
  · left; rw [live_crash hb, crash_topics, if_pos (entry_simple hn), ht]; exact ⟨rfl, hb⟩
  · right; rw [live_act hb, act_topic env (stepOf bg) ht a hd, lived_count]; exact ⟨rfl, hb⟩

/-- Which topics there are. -/
theorem made_iff {n : Str} {A : List (Act I)} (hn : ∀ l o now r, Act.did l (.sCreate n o) now r ∈ A → Paths.Simple n) : (mget (Streams.lived env lossy bg A).topics n).isSome = true ↔ Made n A := by
  constructor
  · intro h
    obtain ⟨t, ht⟩ := Option.isSome_iff_exists.1 h
    obtain ⟨u, o, v, ⟨l, now, r, hs⟩, _, hk⟩ := life_risen ht
    exact ⟨u, l, o, now, r, v, hs, hk⟩
  · rintro ⟨u, l, o, now, r, v, rfl, hk⟩
    have hp : Paths.Simple n := hn l o now r (by simp)
    clear hn
    induction v using Sdk.snoc_ind with
    | h0 =>
      cases h : mget (Streams.lived env lossy bg u).topics n with
      | none =>
        rcases lived_absent h (.did l (.sCreate n o) now r) with ⟨_, _, _, _, _, h'⟩ | h'
        · rw [h']; rfl
        · rw [lived_snoc] at h'
          simp [Streams.live, isStream, streamExec, mhas, h, mget_mset_same] at h'
      | some t =>
        rcases lived_topic hp h (a := .did l (.sCreate n o) now r) (by rintro ⟨_, _, _, e⟩; cases e) with ⟨h', _⟩ | ⟨h', _⟩ <;> rw [h'] <;> rfl
    | h1 v a ih =>
      obtain ⟨t, ht⟩ := Option.isSome_iff_exists.1 (ih (fun b hb => hk b (by simp [hb])))
      rw [← List.cons_append, ← List.append_assoc]
      rcases lived_topic hp ht (hk a (by simp)) with ⟨h', _⟩ | ⟨h', _⟩ <;> rw [h'] <;> rfl

end Verif.Rpc
