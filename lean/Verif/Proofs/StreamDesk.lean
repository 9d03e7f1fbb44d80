import Verif.Spec.StreamDesk
import Verif.Proofs.StreamRpc6

/-!
# Lemmas about streams as one sequential object: every fetch is answered
-/

namespace Verif.Rpc

open Verif Verif.Wire Verif.Sdk
open Verif.Stream (Topic GErr Query Msg FetchOp SCmd)

/-! ### Groups stay -/

theorem mhas_mset_of {α : Type} {m : List (Str × α)} {g k : Str} {v : α} (h : mhas m g = true) : mhas (mset m k v) g = true := by
  unfold mhas at *
  rw [mget_mset]
  split
  · rfl
  · exact h

theorem tryFetch_grow (t : Topic) (g c : Str) (gen l now : Nat) {k : Str} (h : mhas t.groups k = true) :
    mhas (t.tryFetch g c gen l now).1.groups k = true := by
  unfold Topic.tryFetch
  split
  · exact h
  · dsimp only
    split
    · exact mhas_mset_of h
    · split <;> exact mhas_mset_of h

theorem finishCold_grow (t : Topic) (op : FetchOp) (ms : List Msg) (now : Nat) {k : Str} (h : mhas t.groups k = true) :
    mhas (t.finishCold op ms now).1.groups k = true := by
  unfold Topic.finishCold
  split
  · exact h
  · dsimp only
    split
    · exact mhas_mset_of h
    · split <;> exact mhas_mset_of h

theorem dropBinding_grow (order : Str → List Nat) (t : Topic) (b : Str × Str) {k : Str} (h : mhas t.groups k = true) :
    mhas (Topic.dropBinding order t b).groups k = true := by
  unfold Topic.dropBinding
  split
  · exact h
  · split
    · exact h
    · exact mhas_mset_of h

theorem dropBindings_grow (order : Str → List Nat) (bs : List (Str × Str)) : ∀ (t : Topic) {k : Str}, mhas t.groups k = true →
    mhas (bs.foldl (Topic.dropBinding order) t).groups k = true := by
  induction bs with
  | nil => intro t k h; exact h
  | cons b bs ih => intro t k h; exact ih _ (dropBinding_grow order t b h)

theorem mhas_map (m : List (Str × Stream.Group)) (f : Str → Stream.Group → Stream.Group) (k : Str) :
    mhas (m.map (fun e => (e.1, f e.1 e.2))) k = mhas m k := by
  unfold mhas
  rw [Stream.mget_map]
  cases mget m k <;> rfl

theorem groups_grow (crc : Bytes → Nat) (t : Topic) (e : Stream.Ev) {k : Str} (h : mhas t.groups k = true) : mhas (t.step crc e).1.groups k = true := by
  cases e with
  | join g conn c => exact mhas_mset_of h
  | leave g c gen order =>
    simp only [Topic.step, Topic.leave]
    split
    · exact h
    · split
      · exact h
      · split
        · exact h
        · exact mhas_mset_of h
  | disconnect conn order =>
    simp only [Topic.step, Topic.disconnect]
    split
    · exact h
    · exact dropBindings_grow _ _ _ h
  | fetch g c gen l p => simp only [Topic.step]; split <;> exact h
  | attempt id now =>
    simp only [Topic.step, Topic.attempt]
    split
    · exact h
    · next op _ =>
      have := tryFetch_grow t op.group op.consumer op.gen op.limit now h
      split
      · exact h
      · split
        · exact this
        · exact this
        · exact this
        · split <;> exact this
  | giveUp id =>
    simp only [Topic.step]
    split
    · exact h
    · split <;> exact h
  | finish id now =>
    simp only [Topic.step]
    split
    · exact h
    · split
      · exact finishCold_grow _ _ _ _ h
      · exact h
  | ack g c gen s =>
    simp only [Topic.step, Topic.ack]
    split
    · exact h
    · split <;> exact mhas_mset_of h
  | seek g b => exact mhas_mset_of h
  | tick now order =>
    simp only [Topic.step, Topic.tick]
    rw [mhas_map t.groups (fun k g => (g.checkRedelivery now (order k)).1)]
    exact h
  | retainDone =>
    simp only [Topic.step]
    split
    · next hd _ =>
      simp only [Topic.applyOutcome]
      split
      · dsimp only
        rw [mhas_map t.groups (fun _ g => (g.clampHead hd).1)]; exact h
      · exact h
    · exact h
  | storage now =>
    simp only [Topic.step]
    split
    · exact h
    · next c cs _ => cases c <;> exact h
  | publish => exact h
  | send i => simp only [Topic.step]; split <;> exact h
  | abort => exact h
  | evictLoad => exact h
  | evictRun => simp only [Topic.step]; split <;> exact h
  | save order => simp only [Topic.step, Topic.saveGroups]; split <;> exact h
  | retainSend => simp only [Topic.step]; split <;> exact h
  | read f l => simp only [Topic.step, Topic.startRead]; split <;> exact h
  | readDone id => simp only [Topic.step]; split <;> exact h
  | flush now => simp only [Topic.step, Topic.flushAll]; split <;> exact h
  | leak => exact h
  | closeHandle => exact h

/-! ### A fetch in progress has a group, and the storage task works on it if it waits for it -/

structure Alive (t : Topic) : Prop where
  group : ∀ id op, mget t.fetches id = some op → mhas t.groups op.group = true
  disk : ∀ id op, mget t.fetches id = some op → op.phase = .disk → ∃ fr l, SCmd.cold id fr l ∈ t.chan

theorem Alive.less {t t' : Topic} (h : Alive t) (hf : ∀ id op, mget t'.fetches id = some op → mget t.fetches id = some op)
    (hg : ∀ k, mhas t.groups k = true → mhas t'.groups k = true) (hc : ∀ c ∈ t.chan, c ∈ t'.chan) : Alive t' :=
  ⟨fun id op ho => hg _ (h.group id op (hf id op ho)), fun id op ho hp => by
    obtain ⟨fr, l, hm⟩ := h.disk id op (hf id op ho) hp
    exact ⟨fr, l, hc _ hm⟩⟩

theorem Alive.del {t t' : Topic} (h : Alive t) (id : Nat) (hf : t'.fetches = mdel t.fetches id)
    (hg : ∀ k, mhas t.groups k = true → mhas t'.groups k = true) (hc : t'.chan = t.chan) : Alive t' :=
  h.less (fun i op ho => by rw [hf, mget_mdel] at ho; split at ho <;> first | cases ho | exact ho) hg (fun c hm => by rw [hc]; exact hm)

theorem Alive.step {t : Topic} (h : Alive t) (crc : Bytes → Nat) (e : Stream.Ev) : Alive (t.step crc e).1 := by
  have grow := fun k => groups_grow crc t e (k := k)
  have same : ∀ t' : Topic, t'.fetches = t.fetches → (∀ k, mhas t.groups k = true → mhas t'.groups k = true) → (∀ c ∈ t.chan, c ∈ t'.chan) → Alive t' :=
    fun t' h1 h2 h3 => h.less (fun id op ho => by rw [h1] at ho; exact ho) h2 h3
  cases e with
  | fetch g c gen l p =>
    simp only [Topic.step] at grow ⊢
    split
    · exact same _ rfl (fun k hk => hk) (fun c hc => hc)
    · next gr hg =>
      refine ⟨?_, ?_⟩
      · intro id op ho
        dsimp only at ho ⊢
        rw [mget_mset] at ho
        split at ho
        · injection ho with ho; subst ho; simp [mhas, hg]
        · exact h.group id op ho
      · intro id op ho hp
        dsimp only at ho ⊢
        rw [mget_mset] at ho
        split at ho
        · injection ho with ho; subst ho; cases hp
        · exact h.disk id op ho hp
  | attempt id now =>
    simp only [Topic.step, Topic.attempt] at grow ⊢
    split
    · exact h
    · next op hop =>
      have hw := Stream.tryFetch_waits t op.group op.consumer op.gen op.limit now
      have hg := fun k => tryFetch_grow t op.group op.consumer op.gen op.limit now (k := k)
      split
      · exact h
      · split
        · exact h.del id (by simp [Topic.endFetch, hw.2.1]) hg (by simp [Topic.endFetch, hw.2.2.2])
        · exact h.del id (by simp [Topic.endFetch, hw.2.1]) hg (by simp [Topic.endFetch, hw.2.2.2])
        · next fr _ =>
          refine ⟨?_, ?_⟩
          · intro i op' ho
            dsimp only at ho ⊢
            rw [mget_mset] at ho
            split at ho
            · injection ho with ho; subst ho; exact hg _ (h.group id op hop)
            · exact hg _ (h.group i op' ho)
          · intro i op' ho hp
            dsimp only at ho ⊢
            rw [mget_mset] at ho
            split at ho
            · next hi => subst hi; exact ⟨fr, op.limit, by simp⟩
            · obtain ⟨fr', l, hm⟩ := h.disk i op' ho hp
              exact ⟨fr', l, List.mem_append.2 (.inl hm)⟩
        · split
          · refine ⟨?_, ?_⟩
            · intro i op' ho
              dsimp only at ho ⊢
              rw [mget_mset] at ho
              split at ho
              · injection ho with ho; subst ho; exact hg _ (h.group id op hop)
              · exact hg _ (h.group i op' ho)
            · intro i op' ho hp
              dsimp only at ho ⊢
              rw [mget_mset] at ho
              split at ho
              · injection ho with ho; subst ho; cases hp
              · rw [hw.2.2.2]; exact h.disk i op' ho hp
          · exact h.del id (by simp [Topic.endFetch, hw.2.1]) hg (by simp [Topic.endFetch, hw.2.2.2])
  | giveUp id =>
    simp only [Topic.step] at grow ⊢
    split
    · exact h
    · split
      · exact h.del id rfl (fun k hk => hk) rfl
      · exact h
  | finish id now =>
    simp only [Topic.step] at grow ⊢
    split
    · exact h
    · next op hop =>
      split
      · next ms _ =>
        have hw := Stream.finishCold_waits t op ms now
        exact h.del id (by simp [Topic.endFetch, hw.2.1]) (fun k => finishCold_grow t op ms now (k := k)) (by simp [Topic.endFetch, hw.2.2.2])
      · exact h
  | abort id => exact h.del id rfl (fun k hk => hk) rfl
  | storage now =>
    simp only [Topic.step] at grow ⊢
    split
    · exact h
    · next c cs hc =>
      have hcs : ∀ id fr l, SCmd.cold id fr l ∈ t.chan → c = .cold id fr l ∨ SCmd.cold id fr l ∈ cs := by
        intro id fr l hm
        rw [hc] at hm
        rcases List.mem_cons.1 hm with hm | hm
        · exact .inl hm.symm
        · exact .inr hm
      cases c with
      | cold id' fr' l' =>
        refine ⟨?_, ?_⟩
        · intro id op ho
          simp only [Topic.handle, mget_mupd] at ho ⊢
          split at ho
          · next hi =>
            obtain ⟨op0, h0, h1⟩ := Option.map_eq_some_iff.1 ho
            subst hi
            have := h.group _ _ h0
            split at h1 <;> subst h1 <;> exact this
          · exact h.group id op ho
        · intro id op ho hp
          simp only [Topic.handle, mget_mupd] at ho ⊢
          split at ho
          · next hi =>
            obtain ⟨op0, h0, h1⟩ := Option.map_eq_some_iff.1 ho
            split at h1
            · subst h1; cases hp
            · next hph => subst h1; exact absurd hp hph
          · next hi =>
            obtain ⟨fr, l, hm⟩ := h.disk id op ho hp
            rcases hcs id fr l hm with he | hm
            · injection he with he; exact absurd he.symm hi
            · exact ⟨fr, l, hm⟩
      | _ =>
        refine ⟨fun id op ho => h.group id op ho, fun id op ho hp => ?_⟩
        obtain ⟨fr, l, hm⟩ := h.disk id op ho hp
        rcases hcs id fr l hm with he | hm
        · cases he
        · exact ⟨fr, l, hm⟩
  | join g conn c => exact same _ rfl grow (fun c hc => hc)
  | leave g c gen order =>
    simp only [Topic.step, Topic.leave] at grow ⊢
    split
    · exact h
    · split
      · exact h
      · split
        · exact h
        · exact same _ rfl (fun k hk => mhas_mset_of hk) (fun c hc => hc)
  | disconnect conn order =>
    simp only [Topic.step, Topic.disconnect] at grow ⊢
    split
    · exact h
    · next bs hb =>
      have hw := Stream.dropBindings_waits order bs { t with clients := mdel t.clients conn }
      exact same _ hw.2.1 (fun k hk => dropBindings_grow order bs { t with clients := mdel t.clients conn } hk) (fun c hc => by rw [hw.2.2.2]; exact hc)
  | ack g c gen s =>
    simp only [Topic.step, Topic.ack] at grow ⊢
    split
    · exact h
    · split <;> exact same _ rfl (fun k hk => mhas_mset_of hk) (fun c hc => hc)
  | seek g b => exact same _ rfl grow (fun c hc => hc)
  | tick now order => exact same _ rfl grow (fun c hc => hc)
  | retainDone =>
    simp only [Topic.step] at grow ⊢
    split
    · next hd ho =>
      simp only [ho] at grow
      refine same _ ?_ grow ?_
      · simp only [Topic.applyOutcome]; split <;> rfl
      · simp only [Topic.applyOutcome]; split <;> exact fun c hc => hc
    · exact h
  | publish => exact same _ rfl grow (fun c hc => hc)
  | send i =>
    simp only [Topic.step] at grow ⊢
    split
    · exact h
    · exact same _ rfl (fun k hk => hk) (fun c hc => List.mem_append.2 (.inl hc))
  | evictLoad => exact same _ rfl grow (fun c hc => hc)
  | evictRun =>
    simp only [Topic.step] at grow ⊢
    split
    · exact h
    · exact same _ rfl (fun k hk => hk) (fun c hc => hc)
  | save order =>
    simp only [Topic.step, Topic.saveGroups] at grow ⊢
    split
    · exact same _ rfl (fun k hk => hk) (fun c hc => List.mem_append.2 (.inl hc))
    · exact h
  | retainSend =>
    simp only [Topic.step] at grow ⊢
    split
    · exact same _ rfl (fun k hk => hk) (fun c hc => List.mem_append.2 (.inl hc))
    · exact h
  | read f l =>
    simp only [Topic.step, Topic.startRead] at grow ⊢
    split
    · exact same _ rfl (fun k hk => hk) (fun c hc => List.mem_append.2 (.inl hc))
    · exact same _ rfl (fun k hk => hk) (fun c hc => hc)
  | readDone id =>
    simp only [Topic.step] at grow ⊢
    split
    · exact same _ rfl (fun k hk => hk) (fun c hc => hc)
    · exact h
  | flush now =>
    simp only [Topic.step, Topic.flushAll] at grow ⊢
    split
    · exact same _ rfl (fun k hk => hk) (fun c hc => hc)
    · exact same _ rfl (fun k hk => hk) (fun c hc => hc)
  | leak => exact same _ rfl grow (fun c hc => hc)
  | closeHandle => exact same _ rfl grow (fun c hc => hc)

theorem Alive.run (crc : Bytes → Nat) : ∀ (es : List Stream.Ev) {t : Topic}, Alive t → Alive (t.run crc es) := by
  intro es
  induction es with
  | nil => intro t h; exact h
  | cons e es ih => intro t h; exact ih (h.step crc e)

theorem Alive.fresh (crc : Bytes → Nat) (cfg : Stream.Cfg) : Alive (Topic.fresh crc cfg) :=
  ⟨fun _ _ h => (by cases h), fun _ _ h => (by cases h)⟩

/-! ### Every fetch is answered -/

theorem handle_chan (crc : Bytes → Nat) (t : Topic) (c : SCmd) (now : Nat) : (t.handle crc c now).chan = t.chan := by cases c <;> rfl

/-- The storage task works off its commands. -/
theorem storage_run (crc : Bytes → Nat) (now id : Nat) : ∀ (n : Nat) (t : Topic) (op : FetchOp), t.chan.length = n → mget t.fetches id = some op →
    ((∃ ms, op.phase = .answered ms) ∨ (op.phase = .disk ∧ ∃ fr l, SCmd.cold id fr l ∈ t.chan)) →
    ∃ op' ms, mget (t.run crc (List.replicate n (.storage now))).fetches id = some op' ∧ op'.phase = .answered ms := by
  intro n
  induction n with
  | zero =>
    intro t op hn ho hp
    rcases hp with ⟨ms, hp⟩ | ⟨_, fr, l, hm⟩
    · exact ⟨op, ms, ho, hp⟩
    · rw [List.length_eq_zero_iff.1 hn] at hm; cases hm
  | succ n ih =>
    intro t op hn ho hp
    cases hc : t.chan with
    | nil => rw [hc] at hn; cases hn
    | cons c cs =>
      have hcs : cs.length = n := by rw [hc] at hn; simpa using hn
      simp only [List.replicate_succ, Topic.run, Topic.step, hc]
      have hlen : ({ t with chan := cs }.handle crc c now).chan.length = n := by rw [handle_chan]; exact hcs
      by_cases hid : ∃ fr l, c = .cold id fr l
      · obtain ⟨fr, l, rfl⟩ := hid
        refine ih _ (if op.phase = .disk then { op with phase := .answered (Stream.coldRead crc t.disk.segs fr l) } else op) hlen ?_ ?_
        · simp [Topic.handle, mget_mupd, ho]
        · left
          rcases hp with ⟨ms, hp⟩ | ⟨hp, _⟩
          · exact ⟨ms, by rw [hp]; simpa using hp⟩
          · exact ⟨_, by rw [if_pos hp]⟩
      · refine ih _ op hlen ?_ ?_
        · cases c with
          | cold id' fr l =>
            have : id ≠ id' := by intro h; subst h; exact hid ⟨fr, l, rfl⟩
            simp [Topic.handle, mget_mupd, this, ho]
          | _ => exact ho
        · rcases hp with hp | ⟨hp, fr, l, hm⟩
          · exact .inl hp
          · refine .inr ⟨hp, fr, l, ?_⟩
            rw [handle_chan]
            rw [hc] at hm
            rcases List.mem_cons.1 hm with hm | hm
            · exact absurd ⟨fr, l, hm.symm⟩ hid
            · exact hm

theorem Silent.split {crc : Bytes → Nat} {t : Topic} {a b : List Stream.Ev} (h : Silent crc t (a ++ b)) :
    Silent crc t a ∧ Silent crc (t.run crc a) b := by
  unfold Silent at *
  rw [Outs_append] at h
  exact ⟨fun o ho => h o (List.mem_append.2 (.inl ho)), fun o ho => h o (List.mem_append.2 (.inr ho))⟩

/-- A fetch in progress is brought to its end. -/
theorem ends {crc : Bytes → Nat} {t : Topic} (ha : Alive t) {id now : Nat} {again : Bool} {op : FetchOp} (ho : mget t.fetches id = some op) :
    ¬ Silent crc t (fetchEnd crc t id now again) := by
  intro hs
  unfold fetchEnd at hs
  generalize htr : (if (again || (mget t.fetches id).any (fun op => decide (op.phase = .ready))) = true then [Stream.Ev.attempt id now] else []) = tries at hs
  dsimp only at hs
  have key : Alive (t.run crc tries) ∧ ∃ op1, mget (t.run crc tries).fetches id = some op1 ∧ op1.phase ≠ .ready := by
    refine ⟨Alive.run crc _ ha, ?_⟩
    rw [List.append_assoc, List.append_assoc] at hs
    have h1 := hs.split.1
    split at htr
    · subst htr
      have h2 : fetchResult (t.step crc (.attempt id now)).2 = none := h1 _ (by simp [Outs])
      simp only [Topic.run]
      simp only [Topic.step, Topic.attempt, ho] at h2 ⊢
      split at h2
      · next hph => rw [if_pos hph]; exact ⟨op, ho, hph.1⟩
      · next hph =>
        rw [if_neg hph]
        cases htf : (t.tryFetch op.group op.consumer op.gen op.limit now).2 with
        | error x => rw [htf] at h2; simp [Topic.endFetch, fetchResult] at h2
        | ok a =>
          rw [htf] at h2
          cases a with
          | ready ms => simp [Topic.endFetch, fetchResult] at h2
          | needCold fr => exact ⟨_, mget_mset_same .., (fun h => by cases h)⟩
          | wait =>
            dsimp only at h2 ⊢
            split at h2
            · next hp => rw [if_pos hp]; exact ⟨_, mget_mset_same .., (fun h => by cases h)⟩
            · simp [Topic.endFetch, fetchResult] at h2
    · next hn =>
      subst htr
      refine ⟨op, ho, ?_⟩
      simp [ho] at hn
      exact hn.2
  rw [List.append_assoc, List.append_assoc] at hs
  have hs := hs.split.2
  generalize t.run crc tries = t1 at key hs
  obtain ⟨ha1, op1, h1, h2⟩ := key
  have h3 := hs.split.1
  have hw : op1.phase ≠ .waiting := by
    intro hw
    have := h3 _ (List.mem_singleton.2 rfl)
    simp [Topic.step, h1, hw, Topic.endFetch, fetchResult] at this
  have hg : t1.run crc [.giveUp id] = t1 := by simp [Topic.run, Topic.step, h1, hw]
  have h4 := hs.split.2
  rw [hg] at h4
  have h5 := h4.split.2
  have fin : ∀ t2 : Topic, (∃ op' ms, mget t2.fetches id = some op' ∧ op'.phase = .answered ms) → ¬ Silent crc t2 [.finish id now] := by
    rintro t2 ⟨op', ms, e1, e2⟩ h
    have := h _ (List.mem_singleton.2 rfl)
    simp [Topic.step, e1, e2, Topic.endFetch, fetchResult] at this
  refine fin _ ?_ h5
  split
  · next hd =>
    simp only [h1, Option.any_some, decide_eq_true_eq] at hd
    exact storage_run crc now id _ t1 op1 rfl h1 (.inr ⟨hd, ha1.disk id op1 h1 hd⟩)
  · next hd =>
    simp only [h1, Option.any_some, decide_eq_true_eq] at hd
    simp only [Topic.run]
    cases hph : op1.phase with
    | ready => exact absurd hph h2
    | waiting => exact absurd hph hw
    | disk => exact absurd hph hd
    | answered ms => exact ⟨op1, ms, h1, hph⟩

/-- A fetch is answered. -/
theorem fetch_answered (env : Env) (k now : Nat) (q : Query) (poll : Bool) {t : Topic} (ha : Alive t) :
    ∃ pre e post r, Answers env.crc t q now (fetchSteps env k now q poll t) pre e post r := by
  rcases fetch_steps env k now q poll t with h | hs
  · exact h
  · exfalso
    unfold fetchSteps at hs
    split at hs
    · next id again hp =>
      simp only [picked, Option.bind_eq_some_iff] at hp
      obtain ⟨x, _, op, ho, hq⟩ := hp
      split at hq
      · injection hq with hq; subst hq; exact ends ha ho hs
      · cases hq
    · have hb := ha.step env.crc (.fetch q.group q.consumer q.gen q.limit poll)
      cases hg : mget t.groups q.group with
      | none =>
        have := hs _ (List.mem_cons_self ..)
        simp [Topic.step, hg, fetchResult] at this
      | some g =>
        simp only [mhas, hg, Option.isSome_some, if_true] at hs
        refine ends hb (op := { group := q.group, consumer := q.consumer, gen := q.gen, limit := q.limit, poll, token := g.epoch, phase := .ready }) ?_
          (fun o ho => hs o (List.mem_cons_of_mem _ ho))
        simp [Topic.step, hg, mget_mset_same]

end Verif.Rpc
