import Verif.Proofs.StreamRpc5

/-!
# Lemmas about the streams behind the network: the groups of C103
-/

namespace Verif.Rpc

open Verif Verif.Wire Verif.Sdk
open Verif.Stream (Topic GErr Query Msg)

variable {E I : Type} {env : Env} {bg : I → Option (Str × Stream.Ev)} {n g : Str} {A u v w₁ w₂ w₃ : List (Act I)} {o : StreamOpts}

theorem NoSeek_left {a b : List Stream.Ev} (h : Stream.NoSeek g (a ++ b)) : Stream.NoSeek g a := fun x hx => h x (List.mem_append.2 (.inl hx))
theorem NoSeek_right {a b : List Stream.Ev} (h : Stream.NoSeek g (a ++ b)) : Stream.NoSeek g b := fun x hx => h x (List.mem_append.2 (.inr hx))

theorem Streamed.started (ht : Streamed env bg A) (o : StreamOpts) : Stream.Started env.crc (newTopic env o) := new_started ht.ok.deliveries o

theorem joinIds_mid {a b : List Stream.Ev} (h : (Stream.joinIds g (a ++ b)).Nodup) : (Stream.joinIds g a).Nodup := by
  rw [joinIds_append] at h; exact (List.nodup_append.1 h).1

/-- The consumer ids of the steps up to some step of an act. -/
theorem Streamed.nodup_steps (ht : Streamed env bg A) {a : Act I} (hs : A = w₁ ++ a :: w₂) (h : Born env bg n w₁ u o v) (ha : ¬ dropsTopic n a) {p q : List Stream.Ev}
    (hst : actSteps env bg n (w₁.countP isStreamAct) ((newTopic env o).run env.crc (hist env bg n u o v)) a = p ++ q) (g : Str) :
    (Stream.joinIds g (hist env bg n u o v ++ p)).Nodup := by
  have h2 := h.extend (w := [a]) (by intro z hz; rw [List.mem_singleton.1 hz]; exact ha)
  have := ht.nodup ⟨w₂, by rw [hs]; simp⟩ h2 g
  rw [h.next, hst, ← List.append_assoc] at this
  exact joinIds_mid this

/-- No message is handed out twice, unless it is taken back in between. -/
theorem Streamed.exclusive (ht : Streamed env bg A) {l l' gen gen' lim lim' w w' now now' : Nat} {c c' : Str} {r r' : Option Response}
    (hs : A = w₁ ++ .did l (.sFetch n g c gen lim w) now r :: w₂ ++ .did l' (.sFetch n g c' gen' lim' w') now' r' :: w₃)
    {s : Nat} (hm : s ∈ fetchedSeqs r) (hm' : s ∈ fetchedSeqs r') (hd : ∀ a ∈ w₂, ¬ dropsTopic n a) :
    ∃ x a y, w₂ = x ++ a :: y ∧ (takesBack env bg (w₁ ++ .did l (.sFetch n g c gen lim w) now r :: x) n g c now a ∨ seeks n g a) := by
  have hs1 : A = w₁ ++ .did l (.sFetch n g c gen lim w) now r :: (w₂ ++ .did l' (.sFetch n g c' gen' lim' w') now' r' :: w₃) := by rw [hs]; simp
  obtain ⟨u, o, v, h⟩ := ht.fetch_born hs1 (seqs_ne hm)
  obtain ⟨p, e, q, k1, k2, k3, k4⟩ := ht.delivers hs1 hm h
  have h2 := h.extend (w := .did l (.sFetch n g c gen lim w) now r :: w₂) (by
    intro a ha
    rcases List.mem_cons.1 ha with rfl | ha
    · exact fetch_not_drop
    · exact hd a ha)
  obtain ⟨p', e', q', j1, j2, j3, j4⟩ := ht.delivers hs hm' h2
  have hnd := ht.nodup_steps hs h2 fetch_not_drop j1 g
  have ht2 := h.then (a := .did l (.sFetch n g c gen lim w) now r) fetch_not_drop w₂
  rw [k1] at ht2
  generalize hS : stepsFrom env bg n ((w₁ ++ [Act.did l (.sFetch n g c gen lim w) now r]).countP isStreamAct)
    ((newTopic env o).run env.crc (hist env bg n u o (v ++ [Act.did l (.sFetch n g c gen lim w) now r]))) w₂ = S at ht2
  have hev : hist env bg n u o (v ++ .did l (.sFetch n g c gen lim w) now r :: w₂) ++ p' = (hist env bg n u o v ++ p) ++ e :: (q ++ S ++ p') := by
    rw [ht2]; simp
  rw [hev] at hnd j3
  obtain ⟨b, x, d, hx, hcase⟩ := Stream.C44_one_holder (ht.started o) g _ _ e e' hnd s now c k2 j3
  -- the step belongs to one of the acts in between
  have hsrc : ∀ {z : Stream.Ev} {a : Act I} {k : Nat} {t : Topic}, z ∈ actSteps env bg n k t a →
      (∃ gen order, z = .leave g c gen order) ∨ (∃ conn order, z = .disconnect conn order) ∨ (∃ t order, z = .tick t order) ∨ (∃ b, z = .seek g b) →
      (∀ l g' c' gen lim w now r, a ≠ .did l (.sFetch n g' c' gen lim w) now r) := by
    intro z a k t hz hk l g' c' gen lim w now r ha
    subst ha
    have := source hz
    cases this with
    | start => rcases hk with ⟨_, _, h⟩ | ⟨_, _, h⟩ | ⟨_, _, h⟩ | ⟨_, h⟩ <;> cases h
    | work _ _ _ _ _ _ _ _ id _ hw =>
      rcases hw with rfl | rfl | rfl | rfl <;> rcases hk with ⟨_, _, h⟩ | ⟨_, _, h⟩ | ⟨_, _, h⟩ | ⟨_, h⟩ <;> cases h
  have hkind : (∃ gen order, x = .leave g c gen order) ∨ (∃ conn order, x = .disconnect conn order) ∨ (∃ t order, x = .tick t order) ∨ (∃ b, x = .seek g b) := by
    rcases hcase with ⟨a1, a2, h, _⟩ | ⟨a1, a2, h, _⟩ | ⟨a1, a2, h, _⟩ | ⟨a1, h⟩
    · exact .inl ⟨_, _, h⟩
    · exact .inr (.inl ⟨_, _, h⟩)
    · exact .inr (.inr (.inl ⟨_, _, h⟩))
    · exact .inr (.inr (.inr ⟨_, h⟩))
  have hin : ∃ b' d', S = b' ++ x :: d' ∧ b = q ++ b' := by
    have hq : x ∉ q := fun hxq => hsrc (z := x) (a := .did l (.sFetch n g c gen lim w) now r) (by rw [k1]; simp [hxq]) hkind l g c gen lim w now r rfl
    have hp' : x ∉ p' := fun hxp => hsrc (z := x) (a := .did l' (.sFetch n g c' gen' lim' w') now' r') (by rw [j1]; simp [hxp]) hkind l' g c' gen' lim' w' now' r' rfl
    rcases List.append_eq_append_iff.1 hx with ⟨z, h1, h2⟩ | ⟨z, h1, h2⟩
    · exact absurd (by rw [h2]; simp : x ∈ p') hp'
    · cases z with
      | nil => exact absurd (by simp only [List.nil_append] at h2; rw [← h2]; simp : x ∈ p') hp'
      | cons y z =>
        injection h2 with h2 h3
        subst h2
        rcases List.append_eq_append_iff.1 h1 with ⟨f, f1, f2⟩ | ⟨f, f1, f2⟩
        · exact ⟨f, z, f2, f1⟩
        · cases f with
          | nil => exact ⟨[], z, by simpa using f2.symm, by simpa using f1.symm⟩
          | cons y' f =>
            injection f2 with f2 _
            exact absurd (by rw [f1, f2]; simp : x ∈ q) hq
  obtain ⟨b', d', hb1, hb2⟩ := hin
  rw [hb1] at hS
  obtain ⟨x1, a, x2, p1, s1, e1, e2, e3⟩ := stepsFrom_split env bg n w₂ _ _ _ _ _ hS
  refine ⟨x1, a, x2, e1, ?_⟩
  have hma : x ∈ actSteps env bg n ((w₁ ++ [Act.did l (.sFetch n g c gen lim w) now r]).countP isStreamAct + x1.countP isStreamAct)
      (((newTopic env o).run env.crc (hist env bg n u o (v ++ [Act.did l (.sFetch n g c gen lim w) now r]))).run env.crc
        (stepsFrom env bg n ((w₁ ++ [Act.did l (.sFetch n g c gen lim w) now r]).countP isStreamAct)
          ((newTopic env o).run env.crc (hist env bg n u o (v ++ [Act.did l (.sFetch n g c gen lim w) now r]))) x1)) a := by rw [e3]; simp
  have hp1 := (single e3 (hsrc hma hkind)).1
  subst hp1
  rw [List.append_nil] at e2
  -- the life up to that act
  have h3 := h.extend (w := .did l (.sFetch n g c gen lim w) now r :: x1) (by
    intro a ha
    rcases List.mem_cons.1 ha with rfl | ha
    · exact fetch_not_drop
    · exact hd a (by rw [e1]; simp [ha]))
  have hh3 : hist env bg n u o (v ++ .did l (.sFetch n g c gen lim w) now r :: x1) = (hist env bg n u o v ++ p) ++ e :: b := by
    rw [h.then fetch_not_drop, k1, hb2, e2]; simp
  have hA3 : A = (w₁ ++ .did l (.sFetch n g c gen lim w) now r :: x1) ++ a :: (x2 ++ .did l' (.sFetch n g c' gen' lim' w') now' r' :: w₃) := by
    rw [hs, e1]; simp
  have hsource := source hma
  rcases hcase with ⟨gen1, order, hx', hok⟩ | ⟨conn, order, hx', hj⟩ | ⟨t', order, hx', ht'⟩ | ⟨b1, hx'⟩
  · left; left
    subst hx'
    cases hsource with
    | leave l1 _ _ _ now1 r1 =>
      have hr := ht.answer hA3 rfl rfl h3
      rw [hh3] at hr
      simp only [streamSteps, Outs, streamAnswer] at hr
      have : (((newTopic env o).run env.crc (hist env bg n u o v ++ p ++ e :: b)).step env.crc
          (.leave g c gen1 (env.order (List.countP isStreamAct (w₁ ++ .did l (.sFetch n g c gen lim w) now r :: x1))))).2 = .ok := by
        have hcnt : (w₁ ++ [Act.did l (.sFetch n g c gen lim w) now r]).countP isStreamAct + x1.countP isStreamAct =
          (w₁ ++ .did l (.sFetch n g c gen lim w) now r :: x1).countP isStreamAct := by
          simp only [List.countP_append, List.countP_cons, List.countP_nil]; omega
        rw [← hcnt]; exact hok
      rw [this] at hr
      subst hr
      exact ⟨l1, gen1, now1, rfl⟩
    | work _ _ _ _ _ _ _ _ id _ hw => rcases hw with hw | hw | hw | hw <;> cases hw
    | task y _ hy => exact absurd (ht.tasks _ _ _ hy) (by simp [inBackground])
  · left; right; left
    subst hx'
    rw [← hh3] at hj
    obtain ⟨v1, aj, v2, q1, q2, f1, f2, f3⟩ : ∃ v1 aj v2 q1 q2, v ++ .did l (.sFetch n g c gen lim w) now r :: x1 = v1 ++ aj :: v2 ∧
        hist env bg n u o v1 = hist env bg n u o v1 ∧
        actSteps env bg n (u.countP isStreamAct + 1 + v1.countP isStreamAct) ((newTopic env o).run env.crc (hist env bg n u o v1)) aj = q1 ++ .join g conn c :: q2 := by
      obtain ⟨P, Q, hPQ⟩ := List.append_of_mem hj
      obtain ⟨v1, aj, v2, q1, q2, f1, f2, f3⟩ := stepsFrom_split env bg n _ _ _ _ _ _ hPQ
      exact ⟨v1, aj, v2, q1, q2, f1, rfl, f3⟩
    obtain ⟨lj, nowj, rj, rfl, hconn, hcons⟩ := join_source ht.tasks (a := aj) (g := g) (conn := conn) (c := c) (f3 ▸ List.mem_append.2 (.inr (List.mem_cons_self ..)))
    rw [f1] at h3
    obtain ⟨wj, hwj, hj3⟩ := h3.prefix
    have hr := ht.answer (l := lj) (cmd := .sJoin g n) (now := nowj) (r := rj) (w₁ := wj) (w₂ := v2 ++ a :: (x2 ++ .did l' (.sFetch n g c' gen' lim' w') now' r' :: w₃))
      (by rw [hA3, hwj]; simp) rfl rfl hj3
    simp only [streamSteps, Outs, streamAnswer, Topic.step] at hr
    cases hsource with
    | task y _ hy =>
      refine ⟨y, lj, order, rfl, by rw [hy, hconn], ?_⟩
      have hc2 : env.consumer (List.countP isStreamAct wj) = c := by rw [hcons, hj3.count]
      rw [hc2] at hr
      exact ⟨nowj, _, _, by rw [hwj, hr]; exact List.mem_append.2 (.inr (List.mem_cons_self ..))⟩
    | work _ _ _ _ _ _ _ _ id _ hw => rcases hw with hw | hw | hw | hw <;> cases hw
  · left; right; right
    subst hx'
    cases hsource with
    | task y _ hy => exact ⟨y, t', order, rfl, hy, ht'⟩
    | work _ _ _ _ _ _ _ _ id _ hw => rcases hw with hw | hw | hw | hw <;> cases hw
  · right
    subst hx'
    exact seek_source ht.tasks hma

/-- An acknowledged message is not handed out again. -/
theorem Streamed.ack_final (ht : Streamed env bg A) {l l' gen gen' lim w t now : Nat} {c c' : Str} {s : Nat} {r : Option Response}
    (hs : A = w₁ ++ .did l (.sAck n g c gen s) t (some .ok) :: w₂ ++ .did l' (.sFetch n g c' gen' lim w) now r :: w₃)
    (hd : ∀ a ∈ w₂, ¬ dropsTopic n a) (hk : ∀ a ∈ w₂, ¬ seeks n g a) : s ∉ fetchedSeqs r := by
  intro hm
  have hs1 : A = w₁ ++ .did l (.sAck n g c gen s) t (some .ok) :: (w₂ ++ .did l' (.sFetch n g c' gen' lim w) now r :: w₃) := by rw [hs]; simp
  obtain ⟨u, o, v, h⟩ := ht.born hs1 rfl rfl (by intro e he; cases he)
  have hna : ¬ dropsTopic n (Act.did (I := I) l (.sAck n g c gen s) t (some .ok)) := by rintro ⟨_, _, _, h⟩; cases h
  have h2 := h.extend (w := .did l (.sAck n g c gen s) t (some .ok) :: w₂) (by
    intro a ha
    rcases List.mem_cons.1 ha with rfl | ha
    · exact hna
    · exact hd a ha)
  obtain ⟨p, e, q, j1, j2, j3, j4⟩ := ht.delivers hs hm h2
  have hnd := ht.nodup_steps hs h2 fetch_not_drop j1 g
  have ht2 := h.then hna w₂
  have hact : actSteps env bg n (w₁.countP isStreamAct) ((newTopic env o).run env.crc (hist env bg n u o v)) (.did l (.sAck n g c gen s) t (some .ok)) = [.ack g c gen s] := by
    simp [actSteps, onTopic, streamSteps]
  rw [hact] at ht2
  generalize hS : stepsFrom env bg n ((w₁ ++ [Act.did l (.sAck n g c gen s) t (some .ok)]).countP isStreamAct)
    ((newTopic env o).run env.crc (hist env bg n u o (v ++ [Act.did l (.sAck n g c gen s) t (some .ok)]))) w₂ = S at ht2
  have hev : hist env bg n u o (v ++ .did l (.sAck n g c gen s) t (some .ok) :: w₂) ++ p = hist env bg n u o v ++ .ack g c gen s :: (S ++ p) := by
    rw [ht2]; simp
  rw [hev] at hnd j3
  have hr := ht.answer hs1 rfl rfl h
  simp only [streamSteps, Outs, streamAnswer] at hr
  refine Stream.C45_acked_not_redelivered (ht.started o) g _ _ e c gen s hnd ?_ ?_ j3
  · split at hr
    · next hx => injection hx
    · injection hr with hr; cases hr
    · cases hr
  · refine NoSeek_append ?_ ?_
    · rw [← hS]; exact noseek_steps ht.tasks hk
    · exact NoSeek_left (by rw [← j1]; exact noseek_act ht.tasks fetch_not_seek)

/-- A group does not go back to a message that it has not been given. -/
theorem Streamed.order (ht : Streamed env bg A) {l l' gen gen' lim lim' w w' now now' : Nat} {c c' : Str} {r r' : Option Response}
    (hs : A = w₁ ++ .did l (.sFetch n g c gen lim w) now r :: w₂ ++ .did l' (.sFetch n g c' gen' lim' w') now' r' :: w₃)
    {s s' : Nat} (hm : s' ∈ fetchedSeqs r) (hm' : s ∈ fetchedSeqs r') (hlt : s < s') (hd : ∀ a ∈ w₂, ¬ dropsTopic n a) (hk : ∀ a ∈ w₂, ¬ seeks n g a) :
    ∃ x a y, w₁ ++ .did l (.sFetch n g c gen lim w) now r :: w₂ = x ++ a :: y ∧ givesOut n g s a ∧ ∀ z ∈ y, ¬ dropsTopic n z ∧ ¬ seeks n g z := by
  have hs1 : A = w₁ ++ .did l (.sFetch n g c gen lim w) now r :: (w₂ ++ .did l' (.sFetch n g c' gen' lim' w') now' r' :: w₃) := by rw [hs]; simp
  obtain ⟨u, o, v, h⟩ := ht.fetch_born hs1 (seqs_ne hm)
  obtain ⟨p, e, q, k1, k2, k3, k4⟩ := ht.delivers hs1 hm h
  have h2 := h.extend (w := .did l (.sFetch n g c gen lim w) now r :: w₂) (by
    intro a ha
    rcases List.mem_cons.1 ha with rfl | ha
    · exact fetch_not_drop
    · exact hd a ha)
  obtain ⟨p', e', q', j1, j2, j3, j4⟩ := ht.delivers hs hm' h2
  have hnd := ht.nodup_steps hs h2 fetch_not_drop j1 g
  have ht2 := h.then (a := .did l (.sFetch n g c gen lim w) now r) fetch_not_drop w₂
  rw [k1] at ht2
  generalize hS : stepsFrom env bg n ((w₁ ++ [Act.did l (.sFetch n g c gen lim w) now r]).countP isStreamAct)
    ((newTopic env o).run env.crc (hist env bg n u o (v ++ [Act.did l (.sFetch n g c gen lim w) now r]))) w₂ = S at ht2
  have hev : hist env bg n u o (v ++ .did l (.sFetch n g c gen lim w) now r :: w₂) ++ p' = (hist env bg n u o v ++ p) ++ e :: (q ++ S ++ p') := by
    rw [ht2]; simp
  have hpos' : 0 < Stream.sinceSeek g s' ((newTopic env o).trace env.crc (hist env bg n u o (v ++ .did l (.sFetch n g c gen lim w) now r :: w₂) ++ p')) := by
    rw [hev]
    refine sinceSeek_of k3 (NoSeek_append (NoSeek_append ?_ ?_) ?_)
    · have := noseek_act (env := env) (k := w₁.countP isStreamAct) (t := (newTopic env o).run env.crc (hist env bg n u o v)) ht.tasks
        (fetch_not_seek (n := n) (g := g) (n' := n) (g' := g) (c := c) (l := l) (gen := gen) (lim := lim) (w := w) (now := now) (r := r))
      rw [k1] at this
      exact fun b hb => this b (by simp [hb])
    · rw [← hS]; exact noseek_steps ht.tasks hk
    · exact NoSeek_left (by rw [← j1]; exact noseek_act ht.tasks fetch_not_seek)
  by_cases hz : Stream.sinceSeek g s ((newTopic env o).trace env.crc (hist env bg n u o (v ++ .did l (.sFetch n g c gen lim w) now r :: w₂) ++ p')) = 0
  · have := Stream.C43_in_order (ht.started o) g _ e' hnd s s' hpos' j3 hz
    omega
  · obtain ⟨P, x, Q, hP, hg, hns⟩ := sinceSeek_pos (Nat.pos_of_ne_zero hz)
    have hin : ∃ Q', hist env bg n u o (v ++ .did l (.sFetch n g c gen lim w) now r :: w₂) = P ++ x :: Q' ∧ Q = Q' ++ p' := by
      rcases List.append_eq_append_iff.1 hP with ⟨z, h1, h2⟩ | ⟨z, h1, h2⟩
      · exfalso
        have hout : (((newTopic env o).run env.crc P).step env.crc x).2 ∈
            Outs env.crc ((newTopic env o).run env.crc (hist env bg n u o (v ++ .did l (.sFetch n g c gen lim w) now r :: w₂))) p' := by
          rw [h2, Outs_append, h1, Stream.run_append]; simp [Outs]
        have hno := j4 _ hout
        unfold Stream.given at hg
        cases hf : (((newTopic env o).run env.crc P).step env.crc x).2 with
        | fetched q0 r0 => rw [hf] at hno; cases hno
        | _ => rw [hf] at hg; cases hg
      · cases z with
        | nil =>
          simp only [List.append_nil] at h1
          simp only [List.nil_append] at h2
          exfalso
          have hout : (((newTopic env o).run env.crc P).step env.crc x).2 ∈
              Outs env.crc ((newTopic env o).run env.crc (hist env bg n u o (v ++ .did l (.sFetch n g c gen lim w) now r :: w₂))) p' := by
            rw [← h2, h1]; simp [Outs]
          have hno := j4 _ hout
          unfold Stream.given at hg
          cases hf : (((newTopic env o).run env.crc P).step env.crc x).2 with
          | fetched q0 r0 => rw [hf] at hno; cases hno
          | _ => rw [hf] at hg; cases hg
        | cons y z =>
          injection h2 with h2 h3
          subst h2
          exact ⟨z, h1, h3⟩
    obtain ⟨Q', hQ1, hQ2⟩ := hin
    obtain ⟨x1, a, y, v1, p1, q1, l1, c1, gen1, lim1, wt1, now1, r1, ms1, f1, f2, f3, f4, f5, f6, f7, f8, _⟩ :=
      ht.find (w₁ := w₁ ++ .did l (.sFetch n g c gen lim w) now r :: w₂) hs h2 hQ1 hg
    refine ⟨x1, a, y, f1, ⟨l1, c1, gen1, lim1, wt1, now1, r1, f3, f4⟩, ?_⟩
    intro z hz
    refine ⟨h2.kept z (by rw [f2]; simp [hz]), ?_⟩
    intro hsk
    rw [hQ2, f8] at hns
    obtain ⟨b, hb⟩ := seek_in (env := env) (bg := bg) hsk ((x1 ++ [a]).countP isStreamAct) ((newTopic env o).run env.crc (hist env bg n u o (v1 ++ [a]))) hz
    exact hns b (by simp only [List.mem_append]; first | exact .inl (.inr hb) | exact .inr hb)

/-- Nothing is skipped. -/
theorem Streamed.no_gap (ht : Streamed env bg A) {x y z : List (Act I)} {l gen lim w now : Nat} {c : Str} {r : Option Response}
    (hs : A = x ++ y ++ .did l (.sFetch n g c gen lim w) now r :: z) {s s' : Nat} (hm : s ∈ fetchedSeqs r) (hlt : s' < s) (h1 : 1 ≤ s')
    (hx : Anew n x) (hk : ∀ a ∈ y, ¬ seeks n g a) (hr : ∀ a ∈ y, ¬ removes bg n a) :
    givesOut n g s' (Act.did (I := I) l (.sFetch n g c gen lim w) now r) ∨ ∃ a ∈ y, givesOut n g s' a := by
  obtain ⟨u, o, v, h⟩ := ht.fetch_born hs (seqs_ne hm)
  obtain ⟨p, e, q, j1, j2, j3, j4⟩ := ht.delivers hs hm h
  obtain ⟨cc, lc, nowc, rc, hu, hy⟩ := h.since hx
  have hvy : ∀ a ∈ v, a ∈ y := by intro a ha; rw [hy]; simp [ha]
  have hend := h.extend (w := [.did l (.sFetch n g c gen lim w) now r]) (by intro a ha; rw [List.mem_singleton.1 ha]; exact fetch_not_drop)
  have hnd := ht.nodup ⟨z, by rw [hs]; simp⟩ hend g
  have hnext := h.next (.did l (.sFetch n g c gen lim w) now r)
  have hns : Stream.NoSeek g (hist env bg n u o (v ++ [.did l (.sFetch n g c gen lim w) now r])) := by
    refine noseek_steps ht.tasks ?_
    intro a ha
    rcases List.mem_append.1 ha with ha | ha
    · exact hk a (hvy a ha)
    · rw [List.mem_singleton.1 ha]; exact fetch_not_seek
  have hret : Stream.Ev.retainDone ∉ hist env bg n u o (v ++ [.did l (.sFetch n g c gen lim w) now r]) := by
    intro hb
    obtain ⟨a, ha, k', t', hx⟩ := steps_mem hb
    have hsrc := source hx
    cases hsrc with
    | task y' _ hy' =>
      rcases List.mem_append.1 ha with ha | ha
      · exact hr _ (hvy _ ha) ⟨y', rfl, hy'⟩
      · have := List.mem_singleton.1 ha; cases this
    | work _ _ _ _ _ _ _ _ id _ hw => rcases hw with hw | hw | hw | hw <;> cases hw
  have hclean := StreamE2E.Clean.after env.crc (topicCfg env.sys o) g _ hns hret
  have hpos : 0 < Stream.sinceSeek g s ((newTopic env o).trace env.crc (hist env bg n u o (v ++ [.did l (.sFetch n g c gen lim w) now r]))) := by
    rw [hnext, j1, ← List.append_assoc]
    refine sinceSeek_of j3 ?_
    rw [hnext, j1] at hns
    exact fun b hb => hns b (by simp [hb])
  have hknown : (Stream.viewAfter env.crc (newTopic env o) g (hist env bg n u o (v ++ [.did l (.sFetch n g c gen lim w) now r]))).known = true := by
    cases hkn : (Stream.viewAfter env.crc (newTopic env o) g (hist env bg n u o (v ++ [.did l (.sFetch n g c gen lim w) now r]))).known with
    | true => rfl
    | false =>
      have := ((Stream.counted_unknown (ht.started o) s _ hnd).2 hkn).1
      omega
  have hg := Stream.C43_no_gap (ht.started o) g _ hnd s s' hlt hpos
  have hpos' : 0 < Stream.sinceSeek g s' ((newTopic env o).trace env.crc (hist env bg n u o (v ++ [.did l (.sFetch n g c gen lim w) now r]))) := by
    rcases hg with hg | hg | hg
    · exact hg
    · exact absurd hg (hclean.removed s')
    · exact absurd hg (hclean.skipped hknown s' h1)
  obtain ⟨P, xe, Q, hP, hg', _⟩ := sinceSeek_pos hpos'
  obtain ⟨x1, a, y', v1, p1, q1, l1, c1, gen1, lim1, wt1, now1, r1, ms1, f1, f2, f3, f4, _⟩ :=
    ht.find (w₁ := x ++ y ++ [.did l (.sFetch n g c gen lim w) now r]) (w₂ := z) (by rw [hs]; simp) hend hP hg'
  have hgo : givesOut n g s' a := ⟨l1, c1, gen1, lim1, wt1, now1, r1, f3, f4⟩
  have : a ∈ v ++ [Act.did l (.sFetch n g c gen lim w) now r] := by rw [f2]; simp
  rcases List.mem_append.1 this with ha | ha
  · exact .inr ⟨a, hvy a ha, hgo⟩
  · rw [List.mem_singleton.1 ha] at hgo; exact .inl hgo

/-- Only the holder acknowledges. -/
theorem Streamed.holder (ht : Streamed env bg A) {l gen t : Nat} {c : Str} {s : Nat} (hs : A = w₁ ++ .did l (.sAck n g c gen s) t (some .ok) :: w₂) :
    ∃ x l' gen' lim w now r y, w₁ = x ++ .did l' (.sFetch n g c gen' lim w) now r :: y ∧ s ∈ fetchedSeqs r ∧ ∀ a ∈ y, ¬ dropsTopic n a ∧ ¬ seeks n g a := by
  obtain ⟨u, o, v, h⟩ := ht.born hs rfl rfl (by intro e he; cases he)
  have hr := ht.answer hs rfl rfl h
  simp only [streamSteps, Outs, streamAnswer] at hr
  have hok : (((newTopic env o).run env.crc (hist env bg n u o v)).step env.crc (.ack g c gen s)).2 = .ok := by
    split at hr
    · next hx => injection hx
    · injection hr with hr; cases hr
    · cases hr
  have hnd := ht.nodup ⟨_, hs.symm⟩ h g
  obtain ⟨_, _, at_, k, hheld⟩ := (Stream.C48_accepted_iff (ht.started o) g _ hnd c gen s).1 hok
  obtain ⟨P, e, Q, hP, hdel, hns⟩ := held_delivered (ht.started o) g s (by
    intro c' at' k' hf
    simp only [Stream.View.start] at hf
    split at hf
    · split at hf <;> cases hf
    · cases hf) _ hnd hheld
  obtain ⟨_, qu, ms, hout, hq, hcc, m, hm, hms⟩ := hdel
  have hg : s ∈ Stream.given env.crc (newTopic env o) g P e := by
    unfold Stream.given
    rw [hout]
    simp only [Stream.Out.gives, if_pos hq]
    exact List.mem_map.2 ⟨m, hm, hms⟩
  obtain ⟨x1, a, y', v1, p1, q1, l1, c1, gen1, lim1, wt1, now1, r1, ms1, f1, f2, f3, f4, _, _, _, f8, f9⟩ := ht.find hs h hP hg
  rw [hout] at f9
  injection f9 with f9 _
  have hc1 : c1 = c := by rw [← hcc, f9]
  subst hc1
  refine ⟨x1, l1, gen1, lim1, wt1, now1, r1, y', by rw [f1, f3], f4, ?_⟩
  intro z hz
  refine ⟨h.kept z (by rw [f2]; simp [hz]), ?_⟩
  intro hsk
  rw [f8] at hns
  obtain ⟨b, hb⟩ := seek_in (env := env) (bg := bg) hsk ((x1 ++ [a]).countP isStreamAct) ((newTopic env o).run env.crc (hist env bg n u o (v1 ++ [a]))) hz
  exact hns b (by simp only [List.mem_append]; first | exact .inl (.inr hb) | exact .inr hb)

theorem timesGiven_snoc (s : Nat) (x : List (Act I)) (a : Act I) : timesGiven n g s (x ++ [a]) = timesGiven n g s x + timesIn n g s a := by
  simp [timesGiven]

theorem timesIn_pos {s : Nat} {a : Act I} (h : timesIn n g s a ≠ 0) :
    ∃ l c gen lim w now r, a = .did l (.sFetch n g c gen lim w) now r ∧ s ∈ fetchedSeqs r ∧ timesIn n g s a = (fetchedSeqs r).count s := by
  unfold timesIn at h ⊢
  split at h
  · split at h
    · next hm =>
      obtain ⟨rfl, rfl⟩ := hm
      exact ⟨_, _, _, _, _, _, _, rfl, List.count_pos_iff.1 (Nat.pos_of_ne_zero h), by simp⟩
    · exact absurd rfl h
  · exact absurd rfl h

/-- No message is handed out more often than allowed. -/
theorem Streamed.limit (ht : Streamed env bg A) {x y z : List (Act I)} (hs : A = x ++ y ++ z) (s : Nat)
    (hd : ∀ a ∈ y, ¬ dropsTopic n a) (hk : ∀ a ∈ y, ¬ seeks n g a) : timesGiven n g s y ≤ env.sys.maxDeliveries := by
  have key : ∀ y z : List (Act I), A = x ++ y ++ z → (∀ a ∈ y, ¬ dropsTopic n a) → (∀ a ∈ y, ¬ seeks n g a) →
      timesGiven n g s y = 0 ∨ ∃ u o v, Born env bg n (x ++ y) u o v ∧
        timesGiven n g s y ≤ Stream.sinceSeek g s ((newTopic env o).trace env.crc (hist env bg n u o v)) := by
    intro y
    induction y using Sdk.snoc_ind with
    | h0 => intro _ _ _ _; exact .inl rfl
    | h1 y a ih =>
      intro z hs hd hk
      have hs' : A = x ++ y ++ a :: z := by rw [hs]; simp
      have ih := ih (a :: z) hs' (fun b hb => hd b (by simp [hb])) (fun b hb => hk b (by simp [hb]))
      have hda := hd a (by simp)
      have hka := hk a (by simp)
      rw [timesGiven_snoc]
      -- what the act adds
      have hstep : ∀ u o v, Born env bg n (x ++ y) u o v →
          Stream.sinceSeek g s ((newTopic env o).trace env.crc (hist env bg n u o v)) + timesIn n g s a ≤
            Stream.sinceSeek g s ((newTopic env o).trace env.crc (hist env bg n u o (v ++ [a]))) := by
        intro u o v h
        have hns : Stream.NoSeek g (actSteps env bg n ((x ++ y).countP isStreamAct) ((newTopic env o).run env.crc (hist env bg n u o v)) a) :=
          noseek_act ht.tasks hka
        rw [h.next]
        by_cases hz : timesIn n g s a = 0
        · rw [hz]; exact StreamE2E.sinceSeek_mono env.crc (newTopic env o) g s _ _ hns
        · obtain ⟨l, c, gen, lim, w, now, r, rfl, hm, he⟩ := timesIn_pos hz
          rw [he]
          obtain ⟨p, e, q, ms, k1, k2, k3, k4, k5, k6, k7⟩ := ht.fetched hs' (seqs_ne hm) h
          rw [k1] at hns ⊢
          have hmono1 := StreamE2E.sinceSeek_mono env.crc (newTopic env o) g s (hist env bg n u o v) p (fun b hb => hns b (by simp [hb]))
          have hmono2 := StreamE2E.sinceSeek_mono env.crc (newTopic env o) g s (hist env bg n u o v ++ p ++ [e]) q (fun b hb => hns b (by simp [hb]))
          have : Decidable (∃ b, e = .seek g b) := Classical.propDecidable _
          rw [StreamE2E.trace_snoc, Stream.sinceSeek_snoc, if_neg (by rintro ⟨b, rfl⟩; exact hns b (by simp)), k2] at hmono2
          have hgives : (Stream.Out.gives g (.fetched ⟨g, c, gen, lim⟩ (.ok ms))) = fetchedSeqs r := by
            simp only [Stream.Out.gives, fetchedSeqs, k5, triples, List.map_map, if_true]; rfl
          rw [hgives] at hmono2
          simp only [List.append_assoc, List.singleton_append] at hmono2 ⊢
          omega
      have hgrow : ∀ u o v, Born env bg n (x ++ y) u o v → Born env bg n (x ++ (y ++ [a])) u o (v ++ [a]) := by
        intro u o v h
        rw [← List.append_assoc]
        exact h.extend (by intro b hb; rw [List.mem_singleton.1 hb]; exact hda)
      rcases ih with h0 | ⟨u, o, v, h, hle⟩
      · by_cases hz : timesIn n g s a = 0
        · left; omega
        · right
          obtain ⟨l, c, gen, lim, w, now, r, rfl, hm, he⟩ := timesIn_pos hz
          obtain ⟨u, o, v, h⟩ := ht.fetch_born hs' (seqs_ne hm)
          have := hstep u o v h
          exact ⟨u, o, v ++ _, hgrow _ _ _ h, by omega⟩
      · right
        have := hstep u o v h
        exact ⟨u, o, v ++ _, hgrow _ _ _ h, by omega⟩
  rcases key y z hs hd hk with h | ⟨u, o, v, h, hle⟩
  · omega
  · have := Stream.C47_delivery_limit (ht.started o) g _ (ht.nodup ⟨z, hs.symm⟩ h g) s
    exact Nat.le_trans hle this

/-- The answer to a fetch, on the wire. -/
theorem Streamed.data (ht : Streamed env bg A) {l : Nat} {c : Str} {gen lim w now : Nat} {d : Bytes}
    (hs : A = w₁ ++ .did l (.sFetch n g c gen lim w) now (some (.data d)) :: w₂) :
    ∃ ms : List Msg, d = wireFetch (ms.map wireMsg) ∧ fetchedMsgs (some (.data d)) = triples ms ∧ (∀ m ∈ ms, m.seq < 2 ^ 64 ∧ m.timestamp < 2 ^ 64) ∧
      (wireFetch (ms.map wireMsg)).length < 2 ^ 32 := by
  obtain ⟨u, o, v, h⟩ := ht.born hs rfl rfl (by intro e he; cases he)
  have hr := ht.answer hs rfl rfl h
  simp only [streamAnswer, streamSteps] at hr
  rcases fetch_steps env (w₁.countP isStreamAct) now ⟨g, c, gen, lim⟩ (decide (w ≠ 0)) ((newTopic env o).run env.crc (hist env bg n u o v)) with
    ⟨p, e, s, res, ha⟩ | hsil
  · rw [ha.find] at hr
    cases res with
    | error x => injection hr with hr; cases hr
    | ok ms =>
      have hact : actSteps env bg n (w₁.countP isStreamAct) ((newTopic env o).run env.crc (hist env bg n u o v)) (.did l (.sFetch n g c gen lim w) now (some (.data d))) =
          fetchSteps env (w₁.countP isStreamAct) now ⟨g, c, gen, lim⟩ (decide (w ≠ 0)) ((newTopic env o).run env.crc (hist env bg n u o v)) := by
        simp [actSteps, onTopic, streamSteps]
      have hst := hact.trans ha.split
      have hout : (((newTopic env o).run env.crc (hist env bg n u o v ++ p)).step env.crc e).2 = .fetched ⟨g, c, gen, lim⟩ (.ok ms) := by
        rw [Stream.run_append]; exact ha.out
      obtain ⟨⟨l', w', now', r', he, h1, h2⟩, h3⟩ := ht.wired hs h hst hout
      injection he with _ _ _ he
      rw [← he] at h1 h2
      injection h1 with h1
      injection h1 with h1
      have hl := (ht.exec _ _ _ _ _ _ hs rfl).2.2 _ rfl
      exact ⟨ms, h1, h2, fun m hm => (ht.fits ⟨_, hs.symm⟩ h m (h3 m hm)).2, by rw [← h1]; exact hl⟩
  · rw [silent_find hsil] at hr
    cases hr

end Verif.Rpc
