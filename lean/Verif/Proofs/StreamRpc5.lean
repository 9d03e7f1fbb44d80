import Verif.Proofs.StreamRpc4

/-!
# Lemmas about the streams behind the network: the properties of C103
-/

namespace Verif.Rpc

open Verif Verif.Wire Verif.Sdk
open Verif.Stream (Topic GErr Query Msg)

variable {E I : Type} {env : Env} {bg : I → Option (Str × Stream.Ev)}

/-! ### Deliveries in a history -/

theorem sinceSeek_pos {crc : Bytes → Nat} {t : Topic} {g : Str} {s : Nat} {es : List Stream.Ev} (h : 0 < Stream.sinceSeek g s (t.trace crc es)) :
    ∃ p e q, es = p ++ e :: q ∧ s ∈ Stream.given crc t g p e ∧ Stream.NoSeek g q := by
  induction es using Sdk.snoc_ind with
  | h0 => simp [Topic.trace, Stream.sinceSeek] at h
  | h1 es e ih =>
    have : Decidable (∃ b, e = .seek g b) := Classical.propDecidable _
    rw [StreamE2E.trace_snoc, Stream.sinceSeek_snoc] at h
    split at h
    · omega
    · next hn =>
      by_cases hg : s ∈ Stream.given crc t g es e
      · exact ⟨es, e, [], rfl, hg, fun _ h => nomatch h⟩
      · have hz : ((((t.run crc es).step crc e).2).gives g).count s = 0 := List.count_eq_zero.2 hg
        rw [hz] at h
        obtain ⟨p, e', q, h1, h2, h3⟩ := ih h
        refine ⟨p, e', q ++ [e], by rw [h1]; simp, h2, ?_⟩
        intro b hb
        rcases List.mem_append.1 hb with hb | hb
        · exact h3 b hb
        · exact hn ⟨b, (List.mem_singleton.1 hb).symm⟩

theorem gives_not_seek {crc : Bytes → Nat} {t : Topic} {g : Str} {s : Nat} {p : List Stream.Ev} {e : Stream.Ev} (h : s ∈ Stream.given crc t g p e) :
    ¬ ∃ b, e = .seek g b := by
  rintro ⟨b, rfl⟩
  simp [Stream.given, Topic.step, Topic.seek, Stream.Out.gives] at h

theorem sinceSeek_of {crc : Bytes → Nat} {t : Topic} {g : Str} {s : Nat} {p q : List Stream.Ev} {e : Stream.Ev} (h : s ∈ Stream.given crc t g p e)
    (hq : Stream.NoSeek g q) : 0 < Stream.sinceSeek g s (t.trace crc (p ++ e :: q)) := by
  have : Decidable (∃ b, e = .seek g b) := Classical.propDecidable _
  have h1 := StreamE2E.sinceSeek_mono crc t g s (p ++ [e]) q hq
  rw [StreamE2E.trace_snoc, Stream.sinceSeek_snoc, if_neg (gives_not_seek h)] at h1
  have h2 : 0 < ((((t.run crc p).step crc e).2).gives g).count s := List.count_pos_iff.2 h
  rw [List.append_assoc, List.singleton_append] at h1
  omega

/-- A message that is held was delivered to its holder, and the group was not sought since. -/
theorem held_delivered {crc : Bytes → Nat} {t : Topic} (hst : Stream.Started crc t) (g : Str) (s : Nat) (hT : ∀ c at_ k, (Stream.View.start t g).fate s ≠ .held c at_ k)
    (es : List Stream.Ev) (hnd : (Stream.joinIds g es).Nodup) {c : Str} {at_ k : Nat} (h : (Stream.viewAfter crc t g es).fate s = .held c at_ k) :
    ∃ p e q, es = p ++ e :: q ∧ Stream.Delivers crc t g p e c at_ s ∧ Stream.NoSeek g q := by
  have key := Stream.hist_ind (name := g) hst
    (fun es v => ∀ c at_ k, v.fate s = .held c at_ k → ∃ p e q, es = p ++ e :: q ∧ Stream.Delivers crc t g p e c at_ s ∧ Stream.NoSeek g q)
    (fun _ => True) ?_ es [] (by simpa using hnd) (fun _ _ => trivial) ?_
  · simpa using key c at_ k (by simpa using h)
  · intro es e v' _ _ ih heff c at_ k hf
    have more : ∀ {c at_}, (∀ b, e ≠ .seek g b) → (∃ p e' q, es = p ++ e' :: q ∧ Stream.Delivers crc t g p e' c at_ s ∧ Stream.NoSeek g q) →
        ∃ p e' q, es ++ [e] = p ++ e' :: q ∧ Stream.Delivers crc t g p e' c at_ s ∧ Stream.NoSeek g q := by
      rintro c at_ hns ⟨p, e', q, h1, h2, h3⟩
      refine ⟨p, e', q ++ [e], by rw [h1]; simp, h2, ?_⟩
      intro b hb
      rcases List.mem_append.1 hb with hb | hb
      · exact h3 b hb
      · exact hns b (List.mem_singleton.1 hb).symm
    by_cases hns : ∀ b, e ≠ .seek g b
    · by_cases hg : s ∈ (((t.run crc es).step crc e).2).gives g
      · generalize hout : ((t.run crc es).step crc e).2 = out at heff hg
        cases heff with
        | delivery _ q ms now hq hl ha hk he =>
          have hmem : s ∈ ms.map (·.seq) := by simpa [Stream.Out.gives, hq] using hg
          have hfs := (Stream.legal_mem hl hmem).2.1
          simp only [Stream.View.obs] at hf
          rw [Stream.foldl_fates] at hf
          rw [hfs] at hf
          injection hf with f1 f2 f3
          obtain ⟨m, hm, hms⟩ := List.mem_map.1 hmem
          exact ⟨es, e, [], rfl, ⟨by rw [← f2]; exact he, q, ms, hout, hq, f1, m, hm, hms⟩, fun _ h => nomatch h⟩
        | other _ _ _ hg' => rw [hg'] at hg; cases hg
        | seek b _ hg' => rw [hg'] at hg; cases hg
      · by_cases hj : (Stream.viewAfter crc t g es).known = true ∨ ∀ conn c, e ≠ .join g conn c
        · rcases heff.keeps hns hj hg with h | ⟨_, _, _, _, _, h⟩ | ⟨c', t', k', h1, h2, _⟩ | ⟨_, _, _, _, h⟩
          · rw [h] at hf; exact more hns (ih c at_ k hf)
          · rw [h] at hf; cases hf
          · rw [h2, h1] at hf
            simp only [Stream.Fate.release] at hf
            split at hf <;> cases hf
          · rw [h] at hf; cases hf
        · simp only [not_or, Classical.not_forall, Classical.not_not] at hj
          obtain ⟨hk, conn, c', he⟩ := hj
          generalize ((t.run crc es).step crc e).2 = out at heff hg
          cases heff with
          | delivery _ q ms now hq hl ha hk' he' => subst he; rcases he' with ⟨_, he'⟩ | ⟨_, he'⟩ <;> cases he'
          | other _ _ _ _ _ _ _ _ _ hnew =>
            have := (hnew (by simpa using hk) conn c' he).2 s
            rw [this] at hf
            split at hf <;> cases hf
          | seek b _ _ => exact absurd rfl (hns b)
    · simp only [Classical.not_forall, Classical.not_not] at hns
      obtain ⟨b, rfl⟩ := hns
      generalize hout : ((t.run crc es).step crc (.seek g b)).2 = out at heff
      cases heff with
      | delivery _ q ms now hq hl ha hk' he' => rcases he' with ⟨_, he'⟩ | ⟨_, he'⟩ <;> cases he'
      | other _ _ _ _ hs => exact absurd rfl (hs b)
      | seek _ _ _ =>
        have hf' : ((Stream.viewAfter crc t g es).fate s).step t.cfg.maxDeliveries t.cfg.ackWait s
            (.restarted (if b then (Stream.viewAfter crc t g es).next else (Stream.viewAfter crc t g es).head)) = .held c at_ k := hf
        simp only [Stream.Fate.step] at hf'
        repeat' split at hf'
        all_goals cases hf'
  · intro c at_ k hf
    exact absurd hf (hT c at_ k)

/-! ### Seeks -/

theorem seek_source (hb : Tasks bg) {n : Str} {k : Nat} {t : Topic} {a : Act I} {g : Str} {b : Bool} (h : Stream.Ev.seek g b ∈ actSteps env bg n k t a) :
    seeks n g a := by
  have hs := source h
  cases hs with
  | seek l g b now r => exact ⟨l, b, now, r, rfl⟩
  | work _ _ _ _ _ _ _ _ id _ hw => rcases hw with hw | hw | hw | hw <;> cases hw
  | task x _ hx => exact absurd (hb _ _ _ hx) (by simp [inBackground])

theorem steps_mem {n : Str} {e : Stream.Ev} : ∀ {v : List (Act I)} {k : Nat} {t : Topic}, e ∈ stepsFrom env bg n k t v →
    ∃ a ∈ v, ∃ k' t', e ∈ actSteps env bg n k' t' a := by
  intro v k t h
  obtain ⟨p, s, hp⟩ := List.append_of_mem h
  obtain ⟨v1, a, v2, p1, s1, rfl, _, h3⟩ := stepsFrom_split env bg n v k t p s e hp
  exact ⟨a, by simp, _, _, by rw [h3]; simp⟩

theorem noseek_steps (hb : Tasks bg) {n g : Str} {v : List (Act I)} {k : Nat} {t : Topic} (h : ∀ a ∈ v, ¬ seeks n g a) :
    Stream.NoSeek g (stepsFrom env bg n k t v) := by
  intro b hm
  obtain ⟨a, ha, k', t', hx⟩ := steps_mem hm
  exact h a ha (seek_source hb hx)

theorem noseek_act (hb : Tasks bg) {n g : Str} {a : Act I} {k : Nat} {t : Topic} (h : ¬ seeks n g a) : Stream.NoSeek g (actSteps env bg n k t a) :=
  fun _ hm => h (seek_source hb hm)

theorem seek_in {n g : Str} {a : Act I} (ha : seeks n g a) : ∀ {v : List (Act I)} (k : Nat) (t : Topic), a ∈ v → ∃ b, Stream.Ev.seek g b ∈ stepsFrom env bg n k t v := by
  intro v
  induction v with
  | nil => intro k t h; cases h
  | cons x v ih =>
    intro k t h
    rcases List.mem_cons.1 h with rfl | h
    · obtain ⟨l, b, now, r, rfl⟩ := ha
      exact ⟨b, by simp [stepsFrom, actSteps, onTopic, streamSteps]⟩
    · obtain ⟨b, hb⟩ := ih _ _ h
      exact ⟨b, by simp only [stepsFrom]; exact List.mem_append.2 (.inr hb)⟩

theorem NoSeek_append {g : Str} {a b : List Stream.Ev} (h1 : Stream.NoSeek g a) (h2 : Stream.NoSeek g b) : Stream.NoSeek g (a ++ b) := by
  intro x hx
  rcases List.mem_append.1 hx with hx | hx
  · exact h1 x hx
  · exact h2 x hx

theorem fetch_not_seek {n n' g' g c : Str} {l gen lim w now : Nat} {r : Option Response} : ¬ seeks n g (Act.did (I := I) l (.sFetch n' g' c gen lim w) now r) := by
  rintro ⟨_, _, _, _, h⟩; cases h

theorem fetch_not_drop {n n' g' c : Str} {l gen lim w now : Nat} {r : Option Response} : ¬ dropsTopic n (Act.did (I := I) l (.sFetch n' g' c gen lim w) now r) := by
  rintro ⟨_, _, _, h⟩; cases h

section

variable {n g : Str} {A u v w₁ w₂ : List (Act I)} {o : StreamOpts}

/-- A fetch that hands out something is about a topic that was created. -/
theorem Streamed.fetch_born (ht : Streamed env bg A) {l : Nat} {g c : Str} {gen lim w now : Nat} {r : Option Response}
    (hs : A = w₁ ++ .did l (.sFetch n g c gen lim w) now r :: w₂) (hne : fetchedMsgs r ≠ []) : ∃ u o v, Born env bg n w₁ u o v :=
  ht.born hs rfl rfl (by rintro e rfl; exact hne rfl)

theorem seqs_ne {r : Option Response} {s : Nat} (h : s ∈ fetchedSeqs r) : fetchedMsgs r ≠ [] := by
  intro h0; simp [fetchedSeqs, h0] at h

/-- What is handed out was published before. -/
theorem Streamed.faithful (ht : Streamed env bg A) {l : Nat} {c : Str} {gen lim w now : Nat} {r : Option Response}
    (hs : A = w₁ ++ .did l (.sFetch n g c gen lim w) now r :: w₂) {s ts : Nat} {pl : Bytes} (hm : (s, ts, pl) ∈ fetchedMsgs r) :
    ∃ x l' y, w₁ = x ++ .did l' (.sPub n pl) ts (some (.data (wireSeq s))) :: y ∧ ∀ a ∈ y, ¬ dropsTopic n a := by
  have hne : fetchedMsgs r ≠ [] := by intro h; rw [h] at hm; cases hm
  obtain ⟨u, o, v, h⟩ := ht.fetch_born hs hne
  obtain ⟨p, e, q, ms, _, _, _, _, h5, h6, _⟩ := ht.fetched hs hne h
  rw [h5] at hm
  obtain ⟨m, hm1, hm2⟩ := List.mem_map.1 hm
  simp only [Prod.mk.injEq] at hm2
  obtain ⟨rfl, rfl, rfl⟩ := hm2
  obtain ⟨v1, l', v2, e1, _⟩ := ht.published ⟨_, hs.symm⟩ h (h6 m hm1)
  obtain ⟨l0, now0, r0, h0⟩ := h.split
  refine ⟨u ++ .did l0 (.sCreate n o) now0 r0 :: v1, l', v2, by rw [h0, e1]; simp, ?_⟩
  intro a ha
  exact h.kept a (by rw [e1]; simp [ha])

/-- The life of a topic begins after its last deletion. -/
theorem Born.since (h : Born env bg n (w₁ ++ w₂) u o v) (hx : Anew n w₁) : ∃ c l now r, u = w₁ ++ c ∧ w₂ = c ++ .did l (.sCreate n o) now r :: v := by
  obtain ⟨l, now, r, hs⟩ := h.split
  rcases List.append_eq_append_iff.1 hs with ⟨c, h1, h2⟩ | ⟨c, h1, h2⟩
  · exact ⟨c, l, now, r, h1, h2⟩
  · cases c with
    | nil => exact ⟨[], l, now, r, by simpa using h1.symm, by simpa using h2.symm⟩
    | cons x c =>
      exfalso
      injection h2 with h2 h3
      rcases hx with rfl | ⟨y, a, rfl, ha⟩
      · cases u <;> cases h1
      · have : a ∈ x :: c := by
          have hl := congrArg List.getLast? h1
          rw [List.getLast?_concat, List.getLast?_append] at hl
          have hgn : (x :: c).getLast? ≠ none := by simp
          cases hg : (x :: c).getLast? with
          | none => exact absurd hg hgn
          | some b =>
            rw [hg, Option.some_or] at hl
            injection hl with hl
            subst hl
            exact List.mem_of_getLast? hg
        rcases List.mem_cons.1 this with rfl | hc
        · obtain ⟨_, _, _, rfl⟩ := ha; cases h2
        · exact h.kept a (by rw [h3]; simp [hc]) ha

/-- The number that a publish is answered with. -/
theorem Streamed.numbers (ht : Streamed env bg A) {x y z : List (Act I)} {l now : Nat} {pl d : Bytes}
    (hs : A = x ++ y ++ .did l (.sPub n pl) now (some (.data d)) :: z) (hx : Anew n x) (hy : ∀ a ∈ y, ¬ dropsTopic n a) :
    d = wireSeq (1 + y.countP (publishes n)) := by
  obtain ⟨u, o, v, h⟩ := ht.born hs rfl rfl (by intro e he; cases he)
  have hr := ht.answer hs rfl rfl h
  rw [ht.log_next ⟨_, hs.symm⟩ h] at hr
  injection hr with hr
  injection hr with hr
  obtain ⟨c, l0, now0, r0, h1, h2⟩ := h.since hx
  have hc : c.countP (publishes n) = 0 := by
    rw [List.countP_eq_zero]
    intro a ha hp
    obtain ⟨c1, c2, hc⟩ := List.append_of_mem ha
    cases a with
    | ticked => cases hp
    | did l' cmd now' r' =>
      cases cmd with
      | sPub m pl' =>
        cases r' with
        | none => cases hp
        | some r' =>
          cases r' with
          | data d' =>
            have hm : m = n := of_decide_eq_true hp
            subst hm
            obtain ⟨u', o', v', h'⟩ := ht.born (w₁ := x ++ c1) (w₂ := c2 ++ .did l0 (.sCreate m o) now0 r0 :: v ++ .did l (.sPub m pl) now (some (.data d)) :: z)
              (cmd := .sPub m pl') (l := l') (now := now') (r := some (.data d')) (by rw [hs, h2, hc]; simp) rfl rfl (by intro e he; cases he)
            have := (h'.extend (w := .did l' (.sPub m pl') now' (some (.data d')) :: c2) (by
              intro a ha
              refine hy a ?_
              rw [h2, hc]
              simp only [List.mem_append, List.append_assoc, List.cons_append]
              exact .inr (by rcases List.mem_cons.1 ha with rfl | ha <;> simp [*]))).now
            have hu : x ++ c1 ++ Act.did l' (.sPub m pl') now' (some (.data d')) :: c2 = u := by rw [h1, hc]; simp
            rw [hu, h.new] at this
            cases this
          | _ => cases hp
      | _ => cases hp
  rw [hr, h2, List.countP_append, hc, Nat.zero_add, List.countP_cons_of_neg (by simp [publishes])]

/-! ### Groups -/

/-- A fetch delivers what it hands out. -/
theorem Streamed.delivers (ht : Streamed env bg A) {l : Nat} {c : Str} {gen lim w now : Nat} {r : Option Response}
    (hs : A = w₁ ++ .did l (.sFetch n g c gen lim w) now r :: w₂) {s : Nat} (hm : s ∈ fetchedSeqs r) (h : Born env bg n w₁ u o v) :
    ∃ p e q, actSteps env bg n (w₁.countP isStreamAct) ((newTopic env o).run env.crc (hist env bg n u o v)) (.did l (.sFetch n g c gen lim w) now r) = p ++ e :: q ∧
      Stream.Delivers env.crc (newTopic env o) g (hist env bg n u o v ++ p) e c now s ∧
      s ∈ Stream.given env.crc (newTopic env o) g (hist env bg n u o v ++ p) e ∧
      Silent env.crc ((newTopic env o).run env.crc (hist env bg n u o v)) p := by
  obtain ⟨p, e, q, ms, h1, h2, h3, h4, h5, h6, h7⟩ := ht.fetched hs (seqs_ne hm) h
  simp only [fetchedSeqs, h5, triples, List.map_map] at hm
  obtain ⟨m, hm1, hm2⟩ := List.mem_map.1 hm
  refine ⟨p, e, q, h1, ⟨h3, _, ms, h2, rfl, rfl, m, hm1, hm2⟩, ?_, h7⟩
  unfold Stream.given
  rw [h2]
  simp only [Stream.Out.gives, if_true]
  exact List.mem_map.2 ⟨m, hm1, hm2⟩

/-- What a step of an act delivers, the act hands out. -/
theorem Streamed.hands (ht : Streamed env bg A) {a : Act I} (hs : A = w₁ ++ a :: w₂) (h : Born env bg n w₁ u o v) {p q : List Stream.Ev} {e : Stream.Ev}
    (hst : actSteps env bg n (w₁.countP isStreamAct) ((newTopic env o).run env.crc (hist env bg n u o v)) a = p ++ e :: q) {s : Nat}
    (hg : s ∈ Stream.given env.crc (newTopic env o) g (hist env bg n u o v ++ p) e) :
    ∃ l c gen lim w now r ms, a = .did l (.sFetch n g c gen lim w) now r ∧ s ∈ fetchedSeqs r ∧
      (((newTopic env o).run env.crc (hist env bg n u o v ++ p)).step env.crc e).2 = .fetched ⟨g, c, gen, lim⟩ (.ok ms) := by
  unfold Stream.given at hg
  cases ho : (((newTopic env o).run env.crc (hist env bg n u o v ++ p)).step env.crc e).2 with
  | fetched qu res =>
    rw [ho] at hg
    cases res with
    | error => cases hg
    | ok ms =>
      simp only [Stream.Out.gives] at hg
      split at hg
      · next hq =>
        subst hq
        obtain ⟨⟨l, w, now, r, ha, hr, hw⟩, _⟩ := ht.wired hs h hst ho
        refine ⟨l, qu.consumer, qu.gen, qu.limit, w, now, r, ms, ha, ?_, rfl⟩
        simp only [fetchedSeqs, hw, triples, List.map_map]
        exact hg
      · cases hg
  | _ => rw [ho] at hg; cases hg

/-- The history after an act and those that follow. -/
theorem Born.then (h : Born env bg n w₁ u o v) {a : Act I} (ha : ¬ dropsTopic n a) (y : List (Act I)) : hist env bg n u o (v ++ a :: y) =
    hist env bg n u o v ++ (actSteps env bg n (w₁.countP isStreamAct) ((newTopic env o).run env.crc (hist env bg n u o v)) a ++
      stepsFrom env bg n ((w₁ ++ [a]).countP isStreamAct) ((newTopic env o).run env.crc (hist env bg n u o (v ++ [a]))) y) := by
  have h'' := h.extend (w := [a]) (by intro z hz; rw [List.mem_singleton.1 hz]; exact ha)
  have hm := h''.more y
  rw [List.append_assoc, List.singleton_append] at hm
  rw [hm, h.next, List.append_assoc]

/-- A delivery in the history of a topic is an act. -/
theorem Streamed.find (ht : Streamed env bg A) (hs : A = w₁ ++ w₂) (h : Born env bg n w₁ u o v) {p q : List Stream.Ev} {e : Stream.Ev}
    (hh : hist env bg n u o v = p ++ e :: q) {s : Nat} (hg : s ∈ Stream.given env.crc (newTopic env o) g p e) :
    ∃ x a y v₁ p₁ q₁ l c gen lim w now r ms, w₁ = x ++ a :: y ∧ v = v₁ ++ a :: y ∧ a = .did l (.sFetch n g c gen lim w) now r ∧ s ∈ fetchedSeqs r ∧
      p = hist env bg n u o v₁ ++ p₁ ∧ Born env bg n x u o v₁ ∧
      actSteps env bg n (x.countP isStreamAct) ((newTopic env o).run env.crc (hist env bg n u o v₁)) a = p₁ ++ e :: q₁ ∧
      q = q₁ ++ stepsFrom env bg n ((x ++ [a]).countP isStreamAct) ((newTopic env o).run env.crc (hist env bg n u o (v₁ ++ [a]))) y ∧
      (((newTopic env o).run env.crc p).step env.crc e).2 = .fetched ⟨g, c, gen, lim⟩ (.ok ms) := by
  obtain ⟨v1, a, v2, p1, s1, e1, e2, e3⟩ := stepsFrom_split env bg n v _ _ _ _ _ hh
  subst e1
  obtain ⟨x, hx, h'⟩ := h.prefix
  have hcount : u.countP isStreamAct + 1 + v1.countP isStreamAct = x.countP isStreamAct := by rw [h'.count]
  rw [hcount] at e3
  have e2' : p = hist env bg n u o v1 ++ p1 := e2
  rw [e2'] at hg
  obtain ⟨l, c, gen, lim, w, now, r, ms, ha, hsq, hout⟩ := ht.hands (w₂ := v2 ++ w₂) (by rw [hs, hx]; simp) h' e3 hg
  refine ⟨x, a, v2, v1, p1, s1, l, c, gen, lim, w, now, r, ms, hx, rfl, ha, hsq, e2', h', e3, ?_, by rw [e2']; exact hout⟩
  have hm := h'.then (h.kept a (by simp)) v2
  have e3' : actSteps env bg n (x.countP isStreamAct) ((newTopic env o).run env.crc (hist env bg n u o v1)) a = p1 ++ e :: s1 := e3
  rw [hh, e2', e3'] at hm
  simp only [List.append_assoc, List.cons_append, List.append_cancel_left_eq, List.cons.injEq, true_and] at hm
  exact hm

end

end Verif.Rpc
