import Verif.Proofs.StreamRpc3
import Verif.Proofs.StreamWait

/-!
# Lemmas about the streams behind the network: what the acts of the life of a topic say
-/

namespace Verif.Rpc

open Verif Verif.Wire Verif.Sdk
open Verif.Stream (Topic GErr Query Msg)

variable {E I : Type} {env : Env} {bg : I → Option (Str × Stream.Ev)}

/-! ### A new topic -/

/-- The topic that a create command makes. -/
def newTopic (env : Env) (o : StreamOpts) : Topic := Topic.fresh env.crc (topicCfg env.sys o)

theorem new_started (h : 1 ≤ env.sys.maxDeliveries) (o : StreamOpts) : Stream.Started env.crc (newTopic env o) := by
  refine ⟨h, id, { segs := [], writers := [], groups := none }, ⟨?_, ?_, ?_⟩, rfl⟩
  · intro i m m0 h; simp [Stream.recover] at h
  · intro m h; simp [Stream.recover] at h
  · intro s h; cases h

theorem new_starts (env : Env) (o : StreamOpts) : Stream.StartsWith env.crc 1 [] 0 (newTopic env o) := by
  refine ⟨id, { segs := [], writers := [], groups := none }, ⟨⟨[], ⟨rfl, rfl, by simp⟩, rfl, by simp, fun _ => rfl⟩,
    by decide, ?_, by simp, by simp, by simp⟩, rfl⟩
  intro i m h; simp at h

theorem new_next (env : Env) (o : StreamOpts) : (newTopic env o).log.next = 1 := rfl

/-- Everything that was done to the topic that was created after `u`, by the acts `v` since. -/
def hist (env : Env) (bg : I → Option (Str × Stream.Ev)) (n : Str) (u : List (Act I)) (o : StreamOpts) (v : List (Act I)) : List Stream.Ev :=
  stepsFrom env bg n (u.countP isStreamAct + 1) (newTopic env o) v

section

variable {n : Str} {A u v w₁ w₂ : List (Act I)} {o : StreamOpts}

theorem Born.count (h : Born env bg n A u o v) : A.countP isStreamAct = u.countP isStreamAct + 1 + v.countP isStreamAct := by
  obtain ⟨l, now, r, rfl⟩ := h.split
  rw [List.countP_append, List.countP_cons_of_pos (by rfl)]
  omega

theorem Born.now (h : Born env bg n A u o v) :
    mget (Streams.after env bg A).topics n = some ((newTopic env o).run env.crc (hist env bg n u o v)) := h.topic

/-- The history goes on. -/
theorem Born.more (h : Born env bg n A u o v) (w : List (Act I)) : hist env bg n u o (v ++ w) =
    hist env bg n u o v ++ stepsFrom env bg n (A.countP isStreamAct) ((newTopic env o).run env.crc (hist env bg n u o v)) w := by
  unfold hist
  rw [stepsFrom_append, h.count]

theorem Born.next (h : Born env bg n A u o v) (a : Act I) : hist env bg n u o (v ++ [a]) =
    hist env bg n u o v ++ actSteps env bg n (A.countP isStreamAct) ((newTopic env o).run env.crc (hist env bg n u o v)) a := by
  rw [h.more]; simp [stepsFrom]

theorem Born.prefix {v₁ v₂ : List (Act I)} (h : Born env bg n A u o (v₁ ++ v₂)) : ∃ w, A = w ++ v₂ ∧ Born env bg n w u o v₁ := by
  obtain ⟨l, now, r, rfl⟩ := h.split
  exact ⟨u ++ .did l (.sCreate n o) now r :: v₁, by simp, ⟨l, now, r, rfl⟩, h.new, fun a ha => h.kept a (List.mem_append.2 (.inl ha))⟩

/-- The consumer ids of the groups of the topic are different. -/
theorem Streamed.nodup (ht : Streamed env bg A) {w : List (Act I)} (hw : w <+: A) (h : Born env bg n w u o v) (g : Str) :
    (Stream.joinIds g (hist env bg n u o v)).Nodup := by
  refine joinIds_nodup ht.tasks n g v _ _ ?_
  obtain ⟨z, rfl⟩ := hw
  rw [← h.count]
  intro i j hi hj he
  exact ht.ok.ids i j (by rw [List.countP_append]; omega) (by rw [List.countP_append]; omega) he

/-- The answer to a command on a topic. -/
theorem Streamed.answer (ht : Streamed env bg A) {l now : Nat} {cmd : Cmd} {r : Option Response} (hs : A = w₁ ++ .did l cmd now r :: w₂)
    (hq : isStream cmd = true) (hn : onTopic cmd = some n) (h : Born env bg n w₁ u o v) :
    r = streamAnswer ((newTopic env o).run env.crc (hist env bg n u o v)).log.next
      (Outs env.crc ((newTopic env o).run env.crc (hist env bg n u o v))
        (streamSteps env (w₁.countP isStreamAct) l now ((newTopic env o).run env.crc (hist env bg n u o v)) cmd)) cmd := by
  have h1 := (ht.exec _ _ _ _ _ _ hs hq).1
  rw [h1]
  cases cmd with
  | sCreate => cases hn
  | sDelete => cases hn
  | sExists => cases hn
  | sPub | sFetch | sJoin | sAck | sSeek | sLeave =>
    simp only [onTopic, Option.some.injEq] at hn
    subst hn
    simp only [streamExec, onTopic, h.now, after_count]
  | _ => cases hq

/-- The answer to a command on a topic that is not there. -/
theorem Streamed.missing (ht : Streamed env bg A) {l now : Nat} {cmd : Cmd} {r : Option Response} (hs : A = w₁ ++ .did l cmd now r :: w₂)
    (hq : isStream cmd = true) (hn : onTopic cmd = some n) (h : mget (Streams.after env bg w₁).topics n = none) :
    r = some (.error (ascii "Topic not found")) := by
  have h1 := (ht.exec _ _ _ _ _ _ hs hq).1
  rw [h1]
  cases cmd with
  | sCreate => cases hn
  | sDelete => cases hn
  | sExists => cases hn
  | sPub | sFetch | sJoin | sAck | sSeek | sLeave =>
    simp only [onTopic, Option.some.injEq] at hn
    subst hn
    simp only [streamExec, onTopic, h]
  | _ => cases hq

/-- A command on a topic that is answered otherwise than by "not found" is about a topic that was created. -/
theorem Streamed.born (ht : Streamed env bg A) {l now : Nat} {cmd : Cmd} {r : Option Response} (hs : A = w₁ ++ .did l cmd now r :: w₂)
    (hq : isStream cmd = true) (hn : onTopic cmd = some n) (hr : ∀ e, r ≠ some (.error e)) : ∃ u o v, Born env bg n w₁ u o v := by
  cases h : mget (Streams.after env bg w₁).topics n with
  | none => exact absurd (ht.missing hs hq hn h) (hr _)
  | some t => exact life_born env bg h

/-! ### Publishing -/

theorem published_sources (n₀ : Nat) : ∀ es : List Stream.Ev, (∀ ts pl, Stream.Ev.publish ts pl ∉ es) → Stream.published n₀ es = [] := by
  intro es
  induction es with
  | nil => intro _; rfl
  | cons e es ih =>
    intro h
    have := ih (fun ts pl hm => h ts pl (List.mem_cons_of_mem _ hm))
    cases e with
    | publish ts pl => exact absurd (List.mem_cons_self ..) (h ts pl)
    | _ => exact this

theorem publish_source (hb : Tasks bg) {k : Nat} {t : Topic} {a : Act I} {ts : Nat} {pl : Bytes} (h : Stream.Ev.publish ts pl ∈ actSteps env bg n k t a) :
    ∃ l r, a = .did l (.sPub n pl) ts r := by
  have hs := source h
  cases hs with
  | pub l pl now r => exact ⟨l, r, rfl⟩
  | work _ _ _ _ _ _ _ _ id _ hw => rcases hw with hw | hw | hw | hw <;> cases hw
  | task x _ hx => exact absurd (hb _ _ _ hx) (by simp [inBackground])

/-- As many messages were published as publishes were answered with a number. -/
theorem Streamed.count (ht : Streamed env bg A) : ∀ (v w : List (Act I)), w <+: A → Born env bg n w u o v →
    (Stream.published 1 (hist env bg n u o v)).length = v.countP (publishes n) := by
  intro v
  induction v using Sdk.snoc_ind with
  | h0 => intro w _ _; rfl
  | h1 v a ih =>
    intro w hw h
    obtain ⟨w', rfl, h'⟩ := h.prefix
    obtain ⟨z, hz⟩ := hw
    have ih' := ih w' ⟨a :: z, by rw [← hz]; simp⟩ h'
    rw [h'.next, Stream.published_append, List.length_append, ih', List.countP_append, List.countP_singleton]
    congr 1
    by_cases hp : ∃ l pl ts r, a = .did l (.sPub n pl) ts r
    · obtain ⟨l, pl, ts, r, rfl⟩ := hp
      have hr := ht.answer (A := A) (w₁ := w') (w₂ := z) (l := l) (now := ts) (r := r) (cmd := .sPub n pl) (by rw [← hz]; simp) rfl rfl h'
      subst hr
      simp [actSteps, onTopic, streamSteps, Stream.published, publishes, streamAnswer]
    · rw [published_sources _ _ (fun ts pl hm => by
        obtain ⟨l, r, rfl⟩ := publish_source ht.tasks hm
        exact hp ⟨l, pl, ts, r, rfl⟩)]
      have : publishes n a = false := by
        cases a with
        | ticked x => rfl
        | did l cmd ts r =>
          cases cmd with
          | sPub m pl =>
            have hm : m ≠ n := by rintro rfl; exact hp ⟨l, pl, ts, r, rfl⟩
            cases r with
            | none => rfl
            | some r => cases r <;> first | rfl | exact decide_eq_false hm
          | _ => rfl
      simp [this]

theorem Streamed.log_next (ht : Streamed env bg A) {w : List (Act I)} (hw : w <+: A) (h : Born env bg n w u o v) :
    ((newTopic env o).run env.crc (hist env bg n u o v)).log.next = 1 + v.countP (publishes n) := by
  rw [Stream.run_next, new_next, ht.count v w hw h]

/-- A published message. -/
theorem Streamed.published (ht : Streamed env bg A) {w : List (Act I)} (hw : w <+: A) (h : Born env bg n w u o v) {m : Msg}
    (hm : m ∈ Stream.published 1 (hist env bg n u o v)) :
    ∃ v₁ l v₂, v = v₁ ++ .did l (.sPub n m.payload) m.timestamp (some (.data (wireSeq m.seq))) :: v₂ ∧ m.seq = 1 + v₁.countP (publishes n) := by
  have key : ∀ (es : List Stream.Ev) (n₀ : Nat), m ∈ Stream.published n₀ es →
      ∃ p s, es = p ++ .publish m.timestamp m.payload :: s ∧ m.seq = n₀ + (Stream.published n₀ p).length := by
    intro es
    induction es with
    | nil => intro n₀ h; cases h
    | cons e es ih =>
      intro n₀ h
      by_cases hp : ∃ ts pl, e = .publish ts pl
      · obtain ⟨ts, pl, rfl⟩ := hp
        rcases List.mem_cons.1 h with rfl | h
        · exact ⟨[], es, rfl, rfl⟩
        · obtain ⟨p, s, h1, h2⟩ := ih _ h
          refine ⟨.publish ts pl :: p, s, by rw [h1]; rfl, ?_⟩
          simp only [Stream.published, List.length_cons]; omega
      · have hpub : ∀ es', Stream.published n₀ (e :: es') = Stream.published n₀ es' := by
          intro es'; cases e <;> first | rfl | exact absurd ⟨_, _, rfl⟩ hp
        rw [hpub] at h
        obtain ⟨p, s, h1, h2⟩ := ih _ h
        exact ⟨e :: p, s, by rw [h1]; rfl, by rw [hpub]; exact h2⟩
  obtain ⟨p, s, h1, h2⟩ := key _ _ hm
  obtain ⟨v1, a, v2, p1, s1, e1, e2, e3⟩ := stepsFrom_split env bg n v _ _ _ _ _ h1
  obtain ⟨l, r, rfl⟩ := publish_source ht.tasks (a := a) (ts := m.timestamp) (pl := m.payload) (e3 ▸ List.mem_append.2 (.inr (List.mem_cons_self ..)))
  have hp1 := (single e3 (by intros; simp)).1
  subst hp1
  rw [List.append_nil] at e2
  subst e1
  obtain ⟨w', rfl, h'⟩ := h.prefix
  obtain ⟨z, hz⟩ := hw
  have hr := ht.answer (A := A) (w₁ := w') (l := l) (now := m.timestamp) (r := r) (cmd := .sPub n m.payload) (w₂ := v2 ++ z) (by rw [← hz]; simp) rfl rfl h'
  have hn := ht.log_next ⟨_, by rw [← hz, List.append_assoc]⟩ h'
  have hseq : m.seq = 1 + v1.countP (publishes n) := by
    rw [h2, e2, ← ht.count v1 w' ⟨_, by rw [← hz, List.append_assoc]⟩ h']; rfl
  simp only [streamAnswer, hn, ← hseq] at hr
  subst hr
  exact ⟨v1, l, v2, rfl, hseq⟩

theorem Streamed.fits (ht : Streamed env bg A) {w : List (Act I)} (hw : w <+: A) (h : Born env bg n w u o v) :
    ∀ m ∈ Stream.published 1 (hist env bg n u o v), Stream.Fits m := by
  intro m hm
  obtain ⟨v1, l, v2, e1, e2⟩ := ht.published hw h hm
  obtain ⟨l', now', r', hs⟩ := h.split
  obtain ⟨z, hz⟩ := hw
  have hA : A = (u ++ .did l' (.sCreate n o) now' r' :: v1) ++ .did l (.sPub n m.payload) m.timestamp (some (.data (wireSeq m.seq))) :: (v2 ++ z) := by
    rw [← hz, hs, e1]; simp
  obtain ⟨h1, h2⟩ := ht.small.payloads l n m.payload m.timestamp (some (.data (wireSeq m.seq))) (by rw [hA]; simp)
  have h3 := ht.small.length
  have h4 : v1.countP (publishes n) ≤ v1.length := List.countP_le_length
  rw [hA] at h3
  simp only [List.length_append, List.length_cons] at h3
  exact ⟨h1, by omega, h2⟩

/-! ### Fetching -/

/-- The messages on the wire. -/
def triples (ms : List Msg) : List (Nat × Nat × Bytes) := ms.map (fun m => (m.seq, m.timestamp, m.payload))

/-- The messages of a step that answers a fetch were published, and are in the answer. -/
theorem Streamed.wired (ht : Streamed env bg A) {a : Act I} (hs : A = w₁ ++ a :: w₂) (h : Born env bg n w₁ u o v) {p s : List Stream.Ev} {e : Stream.Ev}
    (hst : actSteps env bg n (w₁.countP isStreamAct) ((newTopic env o).run env.crc (hist env bg n u o v)) a = p ++ e :: s) {q : Query} {ms : List Msg}
    (hout : (((newTopic env o).run env.crc (hist env bg n u o v ++ p)).step env.crc e).2 = .fetched q (.ok ms)) :
    (∃ l w now r, a = .did l (.sFetch n q.group q.consumer q.gen q.limit w) now r ∧ r = some (.data (wireFetch (ms.map wireMsg))) ∧
      fetchedMsgs r = triples ms) ∧ ∀ m ∈ ms, m ∈ Stream.published 1 (hist env bg n u o v) := by
  rw [Stream.run_append] at hout
  obtain ⟨l, w, now, r, rfl, hf⟩ := answer_act hst hout
  have hw1 : w₁ <+: A := ⟨_, hs.symm⟩
  have hp : ∀ ts pl, Stream.Ev.publish ts pl ∉ p := by
    intro ts pl hm
    obtain ⟨l', r', he⟩ := publish_source ht.tasks (bg := bg) (show Stream.Ev.publish ts pl ∈ actSteps env bg n _ _ (.did l (.sFetch n q.group q.consumer q.gen q.limit w) now r) by
      rw [hst]; simp [hm])
    cases he
  have hpub : Stream.published 1 (hist env bg n u o v ++ p) = Stream.published 1 (hist env bg n u o v) := by
    rw [Stream.published_append, published_sources _ p hp, List.append_nil]
  rw [← Stream.run_append] at hout
  have hmem := Stream.C39_fetch (new_starts env o) (hist env bg n u o v ++ p) e (by rw [new_next, hpub]; exact ht.fits hw1 h) q ms hout
  rw [new_next, hpub, List.nil_append] at hmem
  have hr := ht.answer hs rfl rfl h
  simp only [streamAnswer, hf, Option.map_some, fetchAnswer] at hr
  refine ⟨⟨l, w, now, r, rfl, hr, ?_⟩, hmem⟩
  have hl := (ht.exec _ _ _ _ _ _ hs rfl).2.2 _ hr
  rw [hr]
  exact fetched_wire (fun m hm => (ht.fits hw1 h m (hmem m hm)).2) hl

/-- The step of a fetch that hands out messages. -/
theorem Streamed.fetched (ht : Streamed env bg A) {l : Nat} {g c : Str} {gen lim w now : Nat} {r : Option Response}
    (hs : A = w₁ ++ .did l (.sFetch n g c gen lim w) now r :: w₂) (hne : fetchedMsgs r ≠ []) (h : Born env bg n w₁ u o v) :
    ∃ p e s ms,
      actSteps env bg n (w₁.countP isStreamAct) ((newTopic env o).run env.crc (hist env bg n u o v)) (.did l (.sFetch n g c gen lim w) now r) = p ++ e :: s ∧
      (((newTopic env o).run env.crc (hist env bg n u o v ++ p)).step env.crc e).2 = .fetched ⟨g, c, gen, lim⟩ (.ok ms) ∧
      ((∃ id, e = .attempt id now) ∨ ∃ id, e = .finish id now) ∧
      r = some (.data (wireFetch (ms.map wireMsg))) ∧ fetchedMsgs r = triples ms ∧ (∀ m ∈ ms, m ∈ Stream.published 1 (hist env bg n u o v)) ∧
      Silent env.crc ((newTopic env o).run env.crc (hist env bg n u o v)) p := by
  have hr := ht.answer hs rfl rfl h
  simp only [streamAnswer, streamSteps] at hr
  have hact : actSteps env bg n (w₁.countP isStreamAct) ((newTopic env o).run env.crc (hist env bg n u o v)) (.did l (.sFetch n g c gen lim w) now r) =
      fetchSteps env (w₁.countP isStreamAct) now ⟨g, c, gen, lim⟩ (decide (w ≠ 0)) ((newTopic env o).run env.crc (hist env bg n u o v)) := by
    simp [actSteps, onTopic, streamSteps]
  rcases fetch_steps env (w₁.countP isStreamAct) now ⟨g, c, gen, lim⟩ (decide (w ≠ 0)) ((newTopic env o).run env.crc (hist env bg n u o v)) with
    ⟨p, e, s, res, ha⟩ | hsil
  · rw [ha.find] at hr
    cases res with
    | error x => rw [hr] at hne; exact absurd rfl hne
    | ok ms =>
      have hst := hact.trans ha.split
      have hout : (((newTopic env o).run env.crc (hist env bg n u o v ++ p)).step env.crc e).2 = .fetched ⟨g, c, gen, lim⟩ (.ok ms) := by
        rw [Stream.run_append]; exact ha.out
      obtain ⟨⟨l', w', now', r', he, h1, h2⟩, h3⟩ := ht.wired hs h hst hout
      injection he with _ _ _ he
      rw [← he] at h1 h2
      refine ⟨p, e, s, ms, hst, hout, ?_, h1, h2, h3, ha.before⟩
      rcases ha.clock with hc | hc | hc
      · exact .inl hc
      · exact .inr hc
      · cases ms with
        | nil => rw [h2] at hne; exact absurd rfl hne
        | cons m ms => exact absurd rfl (hc m ms)
  · rw [silent_find hsil] at hr
    rw [hr] at hne
    exact absurd rfl hne

end

end Verif.Rpc
