import Verif.Proofs.StreamStorm2

/-!
# Lemmas about the streams behind the network across crashes: fetching
-/

namespace Verif.Rpc

open Verif Verif.Wire Verif.Sdk
open Verif.Stream (Topic GErr Query Msg)

variable {E I : Type} {env : Env} {lossy : Bytes → Str} {bg : I → Option Job}
variable {n g : Str} {A u v w w₁ w₂ : List (Act I)} {o : StreamOpts} {x : Era}

/-- Every message of the topic fits. -/
theorem Current.fits (h : Current env lossy bg n o w v x) : ∀ m ∈ x.all, Stream.Fits m := by
  intro m hm
  rcases List.mem_append.1 hm with hm | hm
  · exact h.files.fits m hm
  · exact h.orderly.fits m hm

/-- The messages of a step that answers a fetch were published, and are in the answer. -/
theorem Weathered.wired (ht : Weathered env lossy bg A) {a : Act I} (hs : A = w₁ ++ a :: w₂) (h : Current env lossy bg n o w₁ v x) {p s : List Stream.Ev} {e : Stream.Ev}
    (hst : actSteps env (stepOf bg) n (w₁.countP isStreamAct) (x.topic env) a = p ++ e :: s) {q : Query} {ms : List Msg}
    (hout : ((x.start.run env.crc (x.steps ++ p)).step env.crc e).2 = .fetched q (.ok ms)) :
    (∃ l w now r, a = .did l (.sFetch n q.group q.consumer q.gen q.limit w) now r ∧ r = some (.data (wireFetch (ms.map wireMsg))) ∧
      fetchedMsgs r = triples ms) ∧ ∀ m ∈ ms, m ∈ x.all := by
  have hout' := hout
  rw [Stream.run_append] at hout
  obtain ⟨l, w, now, r, rfl, hf⟩ := answer_act hst hout
  have hp : ∀ ts pl, Stream.Ev.publish ts pl ∉ p := by
    intro ts pl hm
    obtain ⟨l', r', he⟩ := publish_source ht.tasks (show Stream.Ev.publish ts pl ∈ actSteps env (stepOf bg) n _ _ (.did l (.sFetch n q.group q.consumer q.gen q.limit w) now r) by
      rw [hst]; simp [hm])
    cases he
  have hpub : Stream.published x.start.log.next (x.steps ++ p) = Stream.published x.start.log.next x.steps := by
    rw [Stream.published_append, published_sources _ p hp, List.append_nil]
  have hmem := Stream.C39_fetch h.starts (x.steps ++ p) e (by rw [hpub]; exact h.orderly.fits) q ms hout'
  rw [hpub] at hmem
  have hr := ht.answer hs rfl rfl h.now
  simp only [streamAnswer, hf, Option.map_some, fetchAnswer] at hr
  refine ⟨⟨l, w, now, r, rfl, hr, ?_⟩, hmem⟩
  have hl := (ht.exec _ _ _ _ _ _ hs rfl).2.2 _ hr
  rw [hr]
  exact fetched_wire (fun m hm => (h.fits m (hmem m hm)).2) hl

/-- The step of a fetch that hands out messages. -/
theorem Weathered.fetched (ht : Weathered env lossy bg A) {l : Nat} {g c : Str} {gen lim w now : Nat} {r : Option Response}
    (hs : A = w₁ ++ .did l (.sFetch n g c gen lim w) now r :: w₂) (hne : fetchedMsgs r ≠ []) (h : Current env lossy bg n o w₁ v x) :
    ∃ p e s ms,
      actSteps env (stepOf bg) n (w₁.countP isStreamAct) (x.topic env) (.did l (.sFetch n g c gen lim w) now r) = p ++ e :: s ∧
      ((x.start.run env.crc (x.steps ++ p)).step env.crc e).2 = .fetched ⟨g, c, gen, lim⟩ (.ok ms) ∧
      r = some (.data (wireFetch (ms.map wireMsg))) ∧ fetchedMsgs r = triples ms ∧ ∀ m ∈ ms, m ∈ x.all := by
  have hr := ht.answer hs rfl rfl h.now
  simp only [streamAnswer, streamSteps] at hr
  have hact : actSteps env (stepOf bg) n (w₁.countP isStreamAct) (x.topic env) (.did l (.sFetch n g c gen lim w) now r) =
      fetchSteps env (w₁.countP isStreamAct) now ⟨g, c, gen, lim⟩ (decide (w ≠ 0)) (x.topic env) := by
    simp [actSteps, onTopic, streamSteps]
  rcases fetch_steps env (w₁.countP isStreamAct) now ⟨g, c, gen, lim⟩ (decide (w ≠ 0)) (x.topic env) with
    ⟨p, e, s, res, ha⟩ | hsil
  · rw [ha.find] at hr
    cases res with
    | error y => rw [hr] at hne; exact absurd rfl hne
    | ok ms =>
      have hst := hact.trans ha.split
      have hout : ((x.start.run env.crc (x.steps ++ p)).step env.crc e).2 = .fetched ⟨g, c, gen, lim⟩ (.ok ms) := by
        rw [Stream.run_append]; exact ha.out
      obtain ⟨⟨l', w', now', r', he, h1, h2⟩, h3⟩ := ht.wired hs h hst hout
      injection he with _ _ _ he
      rw [← he] at h1 h2
      exact ⟨p, e, s, ms, hst, hout, h1, h2, h3⟩
  · rw [silent_find hsil] at hr
    rw [hr] at hne
    exact absurd rfl hne

/-- A fetch that hands out something is about a topic that was created. -/
theorem Weathered.fetch_risen (ht : Weathered env lossy bg A) {l : Nat} {g c : Str} {gen lim w now : Nat} {r : Option Response}
    (hs : A = w₁ ++ .did l (.sFetch n g c gen lim w) now r :: w₂) (hne : fetchedMsgs r ≠ []) : ∃ u o v, Risen env lossy bg n w₁ u o v :=
  ht.risen hs rfl rfl (by rintro e rfl; exact hne rfl)

/-- What is handed out was published before. -/
theorem Weathered.faithful (ht : Weathered env lossy bg A) {l : Nat} {c : Str} {gen lim w now : Nat} {r : Option Response}
    (hs : A = w₁ ++ .did l (.sFetch n g c gen lim w) now r :: w₂) {s ts : Nat} {pl : Bytes} (hm : (s, ts, pl) ∈ fetchedMsgs r) :
    ∃ x l' y, w₁ = x ++ .did l' (.sPub n pl) ts (some (.data (wireSeq s))) :: y ∧ ∀ a ∈ y, ¬ dropsTopic n a ∧ ¬ numbered n s a := by
  have hne : fetchedMsgs r ≠ [] := by intro h; rw [h] at hm; cases hm
  obtain ⟨u, o, v, h⟩ := ht.fetch_risen hs hne
  obtain ⟨x, hc⟩ := ht.current ⟨_, hs.symm⟩ h
  obtain ⟨p, e, q, ms, _, _, _, h5, h6⟩ := ht.fetched hs hne hc
  rw [h5] at hm
  obtain ⟨m, hm1, hm2⟩ := List.mem_map.1 hm
  simp only [Prod.mk.injEq] at hm2
  obtain ⟨rfl, rfl, rfl⟩ := hm2
  obtain ⟨v1, l', v2, e1, e2⟩ := hc.source m (h6 m hm1)
  obtain ⟨l0, now0, r0, h0⟩ := h.split
  refine ⟨u ++ .did l0 (.sCreate n o) now0 r0 :: v1, l', v2, by rw [h0, e1]; simp, ?_⟩
  intro a ha
  exact ⟨h.kept a (by rw [e1]; simp [ha]), e2 a ha⟩

/-! ### What is in the files stays -/

theorem last_unique {α : Type} {N : α → Prop} {a a' b b' : List α} {p p' : α} (h : a ++ p :: b = a' ++ p' :: b') (hp : N p) (hp' : N p')
    (hb : ∀ x ∈ b, ¬ N x) (hb' : ∀ x ∈ b', ¬ N x) : a = a' ∧ p = p' ∧ b = b' := by
  rcases List.append_eq_append_iff.1 h with ⟨c, h1, h2⟩ | ⟨c, h1, h2⟩
  · cases c with
    | nil =>
      simp only [List.nil_append, List.cons.injEq] at h2
      exact ⟨by simpa using h1.symm, h2.1, h2.2⟩
    | cons x c =>
      simp only [List.cons_append, List.cons.injEq] at h2
      exact absurd hp' (hb p' (by rw [h2.2]; simp))
  · cases c with
    | nil =>
      simp only [List.nil_append, List.cons.injEq] at h2
      exact ⟨by simpa using h1, h2.1.symm, h2.2.symm⟩
    | cons x c =>
      simp only [List.cons_append, List.cons.injEq] at h2
      exact absurd hp (hb' p (by rw [h2.2]; simp))

theorem Current.inv (h : Current env lossy bg n o w v x) : ∃ f W, Stream.DInv env.crc x.base x.all (Stream.clockAfter x.since x.steps) (x.topic env) f W :=
  (h.starts.run x.steps h.orderly).2.2

/-- A later moment without crash. -/
theorem Current.later {a : Act I} (h' : Current env lossy bg n o (w ++ [a]) (v ++ [a]) (x.on env bg n w a))
    (h : Current env lossy bg n o w v x) : (x.topic env).log.head ≤ ((x.on env bg n w a).topic env).log.head ∧
    (x.topic env).persisted ≤ ((x.on env bg n w a).topic env).persisted ∧ ∀ m ∈ x.all, m ∈ (x.on env bg n w a).all := by
  obtain ⟨h1, h2⟩ := h.starts.mono x.steps _ h'.orderly
  refine ⟨h1, h2, fun m hm => ?_⟩
  unfold Era.all Era.on
  simp only
  rw [Stream.published_append, ← List.append_assoc]
  exact List.mem_append.2 (.inl hm)

theorem Current.built_head {base : Nat} {msgs : List Msg} {w v : List (Act I)} (h : Current env lossy bg n o w v (x.crashed env lossy base msgs)) :
    ((x.crashed env lossy base msgs).topic env).log.head = base := h.starts.inv.2.2.1

/-- The message is in the files or gone. -/
def Safe (env : Env) (m : Msg) (x : Era) : Prop := (m ∈ x.all ∧ m.seq ≤ (x.topic env).persisted) ∨ m.seq < (x.topic env).log.head

theorem Safe.go {m : Msg} {a : Act I} (h' : Current env lossy bg n o (w ++ [a]) (v ++ [a]) (x.on env bg n w a))
    (h : Current env lossy bg n o w v x) (hs : Safe env m x) : Safe env m (x.on env bg n w a) := by
  obtain ⟨h1, h2, h3⟩ := h'.later h
  rcases hs with ⟨k1, k2⟩ | k
  · exact .inl ⟨h3 m k1, Nat.le_trans k2 h2⟩
  · exact .inr (Nat.lt_of_lt_of_le k h1)

theorem Safe.fall {m : Msg} {base : Nat} {msgs : List Msg} {w v : List (Act I)} (h' : Current env lossy bg n o w v (x.crashed env lossy base msgs))
    (hh : (x.topic env).log.head ≤ base) (hk : ∀ m ∈ x.all, m.seq ≤ (x.topic env).persisted → m ∈ msgs ∨ m.seq < base) (hs : Safe env m x) :
    Safe env m (x.crashed env lossy base msgs) := by
  have hhead := h'.built_head
  rcases hs with ⟨k1, k2⟩ | k
  · rcases hk m k1 k2 with k | k
    · left
      refine ⟨by simp [Era.all, Era.crashed, k], ?_⟩
      have hfl := h'.starts.flushed [] ⟨fun i hi => (by cases hi), fun _ => trivial, fun m hm => (by cases hm)⟩
      obtain ⟨i, hi, hmi⟩ := List.getElem_of_mem k
      have hq := h'.files.numbered i m (by
        show msgs[i]? = some m
        rw [← hmi]; exact List.getElem?_eq_getElem hi)
      have hq' : m.seq = base + i := hq
      have hfl' : base + msgs.length ≤ ((x.crashed env lossy base msgs).topic env).persisted + 1 := hfl
      omega
    · right; omega
  · right; omega

/-- A message that has been flushed can be read after every later crash, until retention removes it. -/
theorem Weathered.durable (ht : Weathered env lossy bg A) {x₁ y z w₃ : List (Act I)} {l s ts : Nat} {pl : Bytes} {a : Act I}
    (hs : A = (x₁ ++ .did l (.sPub n pl) ts (some (.data (wireSeq s))) :: y) ++ z ++ a :: w₃)
    (hy : ∀ b ∈ y, ¬ dropsTopic n b ∧ ¬ numbered n s b) (hz : ∀ b ∈ z, ¬ dropsTopic n b) (ha : breaks bg a)
    (hf : Flushed (Streams.lived env lossy bg (x₁ ++ .did l (.sPub n pl) ts (some (.data (wireSeq s))) :: y)) n s) :
    ∃ t, mget (Streams.lived env lossy bg ((x₁ ++ .did l (.sPub n pl) ts (some (.data (wireSeq s))) :: y) ++ z ++ [a])).topics n = some t ∧
      (Stream.Readable env.crc t ⟨s, ts, pl⟩ ∨ s < t.log.head) := by
  obtain ⟨t, ht1, ht2⟩ := hf
  obtain ⟨u, o, v, hr⟩ := life_risen ht1
  obtain ⟨x, hc⟩ := ht.current ⟨z ++ a :: w₃, by rw [hs]; simp⟩ hr
  have hxt : t = x.topic env := by have := hc.now; rw [ht1] at this; injection this
  subst hxt
  obtain ⟨f, W, hd⟩ := hc.inv
  have hsafe : Safe env ⟨s, ts, pl⟩ x := by
    by_cases hlow : s < (x.topic env).log.head
    · exact .inr hlow
    left
    have hb := hd.headLow
    have hp : (x.topic env).persisted < x.base + x.all.length := by
      have h1 := hd.lenW
      obtain h2 | ⟨D, h2, h3⟩ : (x.topic env).persisted < f ∨ ∃ D, D ≤ W.length ∧ (x.topic env).persisted + 1 ≤ f + D := by
        cases hd.disk with
        | empty _ _ _ h1 _ h2 => left; omega
        | files pre l pp p buf _ hW hg _ _ _ hp _ =>
          right
          refine ⟨W.length, Nat.le_refl _, ?_⟩
          have := hg.lStart
          rw [hW, List.length_append]; omega
      · have := hd.high; omega
      · omega
    have hi : s - x.base < x.all.length := by omega
    obtain ⟨m, hmem, hseq⟩ : ∃ m ∈ x.all, m.seq = s :=
      ⟨x.all[s - x.base], List.getElem_mem hi, by have := hd.num _ _ (List.getElem?_eq_getElem hi); omega⟩
    obtain ⟨v1, l', v2, e1, e2⟩ := hc.source _ hmem
    obtain ⟨l0, now0, r0, h0⟩ := hr.split
    rw [hseq] at e1 e2
    rw [e1] at h0
    obtain ⟨_, he, _⟩ := last_unique (N := numbered n s) (show x₁ ++ Act.did l (.sPub n pl) ts (some (.data (wireSeq s))) :: y =
        (u ++ .did l0 (.sCreate n o) now0 r0 :: v1) ++ .did l' (.sPub n m.payload) m.timestamp (some (.data (wireSeq s))) :: v2 by
      rw [h0]; simp) ⟨_, _, _, rfl⟩ ⟨_, _, _, rfl⟩ (fun b hb => (hy b hb).2) e2
    injection he with _ he1 he2 _
    injection he1 with _ he1
    refine ⟨?_, ht2⟩
    have : (⟨s, ts, pl⟩ : Msg) = m := by
      cases m; simp_all
    rw [this]
    exact hmem
  have hrun := ht.follow n o (fun _ _ x => Safe env ⟨s, ts, pl⟩ x) hc hsafe z (a :: w₃) hz (by rw [hs])
    (fun w v a w₂ x _ _ _ _ h h' hq => hq.go h' h) (fun w v a w₂ x base msgs _ _ _ h' hh hk hq => hq.fall h' hh hk)
  obtain ⟨x', hc', hq'⟩ := hrun
  obtain ⟨base, msgs, k1, k2, k3⟩ := ht.falls (w₂ := w₃) hs ha hc'
  refine ⟨_, k1.now, ?_⟩
  rcases hq'.fall k1 k2 k3 with ⟨j1, j2⟩ | j
  · left
    exact k1.starts.readable (by simpa [Era.all, Era.crashed, Stream.published] using j1)
  · exact .inr j

end Verif.Rpc
