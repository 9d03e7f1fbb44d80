import Verif.Proofs.StreamHist

/-!
# Consequences for single messages
-/

namespace Verif.Stream

open Group

theorem Started.reach {crc : Bytes → Nat} {t : Topic} (h : Started crc t) (name : Str) (es : List Ev)
    (hnd : (joinIds name es).Nodup) :
    ∃ J, Rel name (t.run crc es) (viewAfter crc t name es) J ∧ TInv (t.run crc es)
      ∧ (t.run crc es).cfg = t.cfg ∧ 1 ≤ t.cfg.maxDeliveries ∧ ∀ c cn, (c, cn) ∈ J → c ∈ joinIds name es := by
  obtain ⟨hmd, lossy, d, hd, ht⟩ := h
  have hi : TInv t := by rw [ht]; exact build_inv hd
  have hr : Rel name t (View.start t name) [] := by
    have := build_rel (crc := crc) (cfg := t.cfg) (lossy := lossy) (d := d) hmd name
    rw [← ht] at this
    exact this
  obtain ⟨J, h1, h2⟩ := hr.run hi hmd crc es hnd (fun c _ cn hx => by cases hx)
  refine ⟨J, h1, hi.run crc es, run_cfg crc es t, hmd, fun c cn hc => ?_⟩
  rcases h2 c cn hc with h | h
  · exact h
  · cases h

theorem run_append (crc : Bytes → Nat) (a b : List Ev) (t : Topic) : t.run crc (a ++ b) = (t.run crc a).run crc b := by
  induction a generalizing t with
  | nil => rfl
  | cons e a ih => simp only [List.cons_append, Topic.run]; exact ih _

theorem trace_append (crc : Bytes → Nat) (a b : List Ev) (t : Topic) :
    t.trace crc (a ++ b) = t.trace crc a ++ (t.run crc a).trace crc b := by
  induction a generalizing t with
  | nil => rfl
  | cons e a ih => simp only [List.cons_append, Topic.run, Topic.trace]; rw [ih]

theorem viewAfter_append (crc : Bytes → Nat) (t : Topic) (name : Str) (a b : List Ev) :
    viewAfter crc t name (a ++ b)
      = View.after t.cfg.maxDeliveries t.cfg.ackWait name (viewAfter crc t name a) ((t.run crc a).trace crc b) := by
  unfold viewAfter View.after
  rw [trace_append, List.foldl_append]

theorem viewAfter_snoc (crc : Bytes → Nat) (t : Topic) (name : Str) (a : List Ev) (e : Ev) :
    viewAfter crc t name (a ++ [e])
      = (viewAfter crc t name a).step t.cfg.maxDeliveries t.cfg.ackWait name (e, ((t.run crc a).step crc e).2) := by
  rw [viewAfter_append]
  rfl

theorem joinIds_append (name : Str) (a b : List Ev) : joinIds name (a ++ b) = joinIds name a ++ joinIds name b := by
  induction a with
  | nil => rfl
  | cons e a ih =>
    cases e with
    | join g conn c => simp only [List.cons_append, joinIds]; split <;> simp [ih]
    | _ => exact ih

theorem joinIds_prefix {name : Str} {a b : List Ev} (h : (joinIds name (a ++ b)).Nodup) : (joinIds name a).Nodup := by
  rw [joinIds_append] at h
  exact (List.nodup_append.1 h).1

/-! ### What one event does to one message -/

theorem foldl_fates (max wait : Nat) (os : List Obs) (F : Nat → Fate) (s : Nat) :
    os.foldl (fates max wait) F s = os.foldl (Fate.step max wait s) (F s) := by
  induction os generalizing F with
  | nil => rfl
  | cons o os ih => simp only [List.foldl_cons]; rw [ih]; rfl

/-- Deliveries of other messages do not matter. -/
theorem deliveries_other {max wait : Nat} {c : Str} {now s : Nat} {ms : List Msg} (h : s ∉ ms.map (·.seq)) (f : Fate) :
    (deliveries c now ms).foldl (Fate.step max wait s) f = f := by
  induction ms generalizing f with
  | nil => rfl
  | cons m ms ih =>
    simp only [List.map_cons, List.mem_cons, not_or] at h
    simp only [deliveries, List.map_cons, List.foldl_cons]
    have hne : ¬ m.seq = s := fun e => h.1 e.symm
    have : Fate.step max wait s f (.delivered c now m.seq) = f := by simp [Fate.step, hne]
    rw [this]
    exact ih h.2 f

theorem legal_mem {max wait : Nat} {c : Str} {now : Nat} {F : Nat → Fate} {ms : List Msg}
    (h : Legal max wait c now F ms) {s : Nat} (hs : s ∈ ms.map (·.seq)) :
    (F s = .fresh ∨ ∃ k, F s = .waiting k ∧ k < max)
    ∧ (deliveries c now ms).foldl (Fate.step max wait s) (F s) = .held c now ((F s).count + 1)
    ∧ (ms.map (·.seq)).count s = 1 := by
  induction ms generalizing F with
  | nil => cases hs
  | cons m ms ih =>
    obtain ⟨h1, h2⟩ := h
    by_cases he : m.seq = s
    · -- delivered now: then never again in this answer
      have hF' : fates max wait F (.delivered c now m.seq) s = .held c now ((F s).count + 1) := by
        simp [fates_delivered, he]
      have hnot : s ∉ ms.map (·.seq) := by
        intro hx
        rcases (ih h2 hx).1 with h | ⟨k, h, _⟩ <;> rw [hF'] at h <;> cases h
      refine ⟨?_, ?_, ?_⟩
      · rw [he] at h1
        rcases h1 with h1 | h1
        · exact .inl h1.1
        · exact .inr h1
      · simp only [deliveries, List.map_cons, List.foldl_cons]
        have : Fate.step max wait s (F s) (.delivered c now m.seq) = .held c now ((F s).count + 1) := by
          simp [Fate.step, he]
        rw [this]
        exact deliveries_other hnot _
      · rw [List.map_cons, List.count_cons, List.count_eq_zero_of_not_mem hnot]
        simp [he]
    · have hs' : s ∈ ms.map (·.seq) := by
        simp only [List.map_cons, List.mem_cons] at hs
        rcases hs with h | h
        · exact absurd h.symm he
        · exact h
      have hF' : fates max wait F (.delivered c now m.seq) s = F s := by simp [fates_delivered, he]
      obtain ⟨a1, a2, a3⟩ := ih h2 hs'
      rw [hF'] at a1 a2
      refine ⟨a1, ?_, ?_⟩
      · simp only [deliveries, List.map_cons, List.foldl_cons]
        have : Fate.step max wait s (F s) (.delivered c now m.seq) = F s := by simp [Fate.step, he]
        rw [this]
        exact a2
      · rw [List.map_cons, List.count_cons, a3]
        simp [he]

theorem Rel.known_of_member {name : Str} {t : Topic} {v : View} {J : List (Str × Str)} (h : Rel name t v J) {c conn : Str}
    (hm : (c, conn) ∈ v.members) : v.known = true := by
  cases hg : mget t.groups name with
  | none => rw [(h.unk hg).2] at hm; cases hm
  | some g => exact h.known_of hg

/-- Who can acknowledge what. -/
theorem ack_iff {name : Str} {t : Topic} {v : View} {J : List (Str × Str)} (h : Rel name t v J) (c : Str) (gen s : Nat) :
    (t.ack name c gen s).2 = .ok ↔
      v.known = true ∧ gen = v.gen ∧ (∃ conn, (c, conn) ∈ v.members) ∧ ∃ at_ k, v.fate s = .held c at_ k := by
  unfold Topic.ack
  cases hg : mget t.groups name with
  | none =>
    simp only
    refine ⟨fun x => (by cases x), fun ⟨x, _⟩ => ?_⟩
    rw [h.known] at x
    simp [mhas, hg] at x
  | some g =>
    have hgr := h.grp g hg
    have hcl : g.clampHead t.log.head = (g, false) := by rw [← h.head]; exact hgr.clamped
    simp only [hcl]
    constructor
    · intro ho
      cases ha : (g.ack c gen s).2 with
      | some e => rw [ha] at ho; cases ho
      | none =>
        obtain ⟨a1, a2, p, a3, a4, _⟩ := ack_ok ha
        refine ⟨h.known_of hg, ?_, hgr.mhas.1 a2, p.at_, p.count, ?_⟩
        · rw [← a1, hgr.gen]
        · rw [← a4]; exact (hgr.inv.core.held s p.consumer p.at_ p.count).2 a3
    · rintro ⟨_, b2, b3, t', k, b4⟩
      have hp := (hgr.inv.core.held s c t' k).1 b4
      have : (g.ack c gen s).2 = none := by
        unfold Group.ack Group.inactive
        rw [if_neg (by simp [b2, hgr.gen]), hgr.mhas.2 b3]
        simp [hp]
      rw [this]

/-- What an event and its answer mean for the messages of the group. -/
inductive Effect (max wait : Nat) (name : Str) (v : View) : Ev × Out → View → Prop where
  /-- A delivery. -/
  | delivery (e : Ev) (q : Query) (ms : List Msg) (now : Nat) (hq : q.group = name)
      (hl : Legal max wait q.consumer now v.fate ms)
      (ha : ms ≠ [] → q.gen = v.gen ∧ ∃ conn, (q.consumer, conn) ∈ v.members)
      (hk : ms ≠ [] → v.known = true)
      (he : (∃ id, e = .attempt id now) ∨ ∃ id, e = .finish id now) :
      Effect max wait name v (e, .fetched q (.ok ms)) (v.obs max wait (deliveries q.consumer now ms))
  /-- The group's consumers or the time change, or retention removes messages; or nothing happens. -/
  | other (e : Ev) (o : Out) (v' : View) (hg : o.gives name = []) (hs : ∀ b, e ≠ .seek name b)
      (hgen : v'.gen = v.gen)
      (hf : (v.known = true ∨ ∀ conn c, e ≠ .join name conn c) → ∀ s,
        v'.fate s = v.fate s
        ∨ (∃ c gen, e = .ack name c gen s ∧ o = .ok ∧ (∃ c' t k, v.fate s = .held c' t k) ∧ v'.fate s = .acked)
        ∨ (∃ c at_ k, v.fate s = .held c at_ k ∧ v'.fate s = (v.fate s).release max
            ∧ ((∃ gen order, e = .leave name c gen order ∧ o = .ok)
              ∨ (∃ conn order, e = .disconnect conn order ∧ (c, conn) ∈ v.members)
              ∨ (∃ now order, e = .tick now order ∧ now - at_ > wait)))
        ∨ (∃ head, e = .retainDone ∧ o = .retained head ∧ s < head ∧ v'.fate s = .removed))
      (hk : v.known = true → v'.known = true)
      (hk' : v.known = false → (∀ conn c, e ≠ .join name conn c) → v'.known = false)
      (hnew : v.known = false → ∀ conn c, e = .join name conn c →
        v'.known = true ∧ ∀ s, v'.fate s = if v.head ≤ s then .fresh else .skipped)
      (hm : ∀ c conn, (c, conn) ∈ v'.members → (c, conn) ∈ v.members ∨ e = .join name conn c) :
      Effect max wait name v (e, o) v'
  /-- The group starts again. -/
  | seek (b : Bool) (o : Out) (hg : o.gives name = []) :
      Effect max wait name v (.seek name b, o)
        { v.obs max wait [.restarted (if b then v.next else v.head)] with known := true, gen := v.gen + 1, members := [] }

theorem effect_same {max wait : Nat} {name : Str} {v : View} {e : Ev} {o : Out} (hg : o.gives name = [])
    (hs : ∀ b, e ≠ .seek name b) (hj : ∀ conn c, e ≠ .join name conn c) {v' : View} (h1 : v'.fate = v.fate)
    (h2 : v'.gen = v.gen) (h3 : v'.known = v.known) (h4 : v'.members = v.members) : Effect max wait name v (e, o) v' :=
  .other e o v' hg hs h2 (fun _ s => .inl (by rw [h1])) (fun hk => by rw [h3]; exact hk)
    (fun hk _ => by rw [h3]; exact hk) (fun _ conn c he => absurd he (hj conn c))
    (fun c conn hm => .inl (by rw [← h4]; exact hm))

theorem Rel.effect {name : Str} {t : Topic} {v : View} {J : List (Str × Str)} (ht : TInv t) (h : Rel name t v J)
    (crc : Bytes → Nat) (e : Ev) :
    Effect t.cfg.maxDeliveries t.cfg.ackWait name v (e, (t.step crc e).2)
      (v.step t.cfg.maxDeliveries t.cfg.ackWait name (e, (t.step crc e).2)) := by
  have hans : ∀ now o, (∀ q ms, o = .fetched q (.ok ms) → q.group = name → Served t.cfg t v q now ms) →
      ((∃ id, e = .attempt id now) ∨ ∃ id, e = .finish id now) →
      (∀ b, e ≠ .seek name b) → (∀ conn c, e ≠ .join name conn c) →
      Effect t.cfg.maxDeliveries t.cfg.ackWait name v (e, o) (v.answer t.cfg.maxDeliveries t.cfg.ackWait name now o) := by
    intro now o ha hev hs hj
    by_cases hf : ∃ q ms, o = .fetched q (.ok ms) ∧ q.group = name
    · obtain ⟨q, ms, ho, hq⟩ := hf
      subst ho
      simp only [View.answer, if_pos hq]
      have := ha q ms rfl hq
      exact .delivery e q ms now hq this.legal this.auth
        (fun hne => h.known_of_member (this.auth hne).2.choose_spec) hev
    · have hv : v.answer t.cfg.maxDeliveries t.cfg.ackWait name now o = v :=
        answer_of_none (fun q ms ho => .inr (fun hq => hf ⟨q, ms, ho, hq⟩))
      rw [hv]
      refine effect_same ?_ hs hj rfl rfl rfl rfl
      unfold Out.gives
      split
      · next q ms => rw [if_neg (fun hq => hf ⟨q, ms, rfl, hq⟩)]
      · rfl
  cases e with
  | publish ts p =>
    exact effect_same rfl (fun b hb => by cases hb) (fun a b hb => by cases hb) rfl rfl rfl rfl
  | send i =>
    refine effect_same ?_ (fun b hb => by cases hb) (fun a b hb => by cases hb) rfl rfl rfl rfl
    simp only [Topic.step]; split <;> rfl
  | join g conn c =>
    by_cases hn : g = name
    · subst hn
      simp only [View.step, if_pos]
      refine .other _ _ _ rfl (fun b hb => by cases hb) ?_ ?_ (fun _ => rfl) ?_ ?_ ?_
      · show (if v.known = true then v else _).gen = v.gen
        split <;> rfl
      · intro hk s
        left
        rcases hk with hk | hk
        · show (if v.known = true then v else _).fate s = _
          rw [if_pos hk]
        · exact absurd rfl (hk conn c)
      · intro _ hj; exact absurd rfl (hj conn c)
      · intro hk _ _ _
        refine ⟨rfl, fun s => ?_⟩
        show (if v.known = true then v else _).fate s = _
        rw [if_neg (by simp [hk])]
        exact fates_restarted t.cfg.maxDeliveries t.cfg.ackWait v.fate _ s
      · intro c' cn hm
        simp only [List.mem_cons, Prod.mk.injEq] at hm
        rcases hm with hm | hm
        · right; rw [hm.1, hm.2]
        · exact .inl hm
    · simp only [View.step, if_neg hn]
      exact effect_same rfl (fun b hb => by cases hb) (fun a b hb => by cases hb; exact hn rfl) rfl rfl rfl rfl
  | leave g c gen order =>
    rcases leave_rel h g c gen order with ⟨e, he⟩ | ⟨h1, h2⟩
    · simp only [Topic.step, he]
      exact effect_same rfl (fun b hb => by cases hb) (fun a b hb => by cases hb) rfl rfl rfl rfl
    · simp only [Topic.step, h1]
      simp only [View.step]
      by_cases hn : g = name
      · subst hn
        simp only [if_pos]
        refine .other _ _ _ rfl (fun b hb => by cases hb) rfl ?_ (fun hk => hk) (fun hk _ => hk) (fun _ a b hb => by cases hb) ?_
        · intro _ s
          have hf := fates_left t.cfg.maxDeliveries t.cfg.ackWait v.fate (fun c' => decide (c' = c)) s
          cases hfs : v.fate s with
          | held c' t' k =>
            rw [hfs] at hf
            simp only at hf
            by_cases hc : c' = c
            · right; right; left
              refine ⟨c', t', k, rfl, ?_, .inl ⟨gen, order, by rw [hc], rfl⟩⟩
              rw [if_pos (by simpa using hc)] at hf
              exact hf
            · left
              rw [if_neg (by simpa using hc)] at hf
              exact hf
          | _ => left; rw [hfs] at hf; exact hf
        · intro c' cn hm
          exact .inl (List.mem_filter.1 hm).1
      · rw [if_neg hn]
        exact effect_same rfl (fun b hb => by cases hb) (fun a b hb => by cases hb) rfl rfl rfl rfl
  | disconnect conn order =>
    simp only [View.step]
    refine .other _ _ _ rfl (fun b hb => by cases hb) rfl ?_ (fun hk => hk) (fun hk _ => hk) (fun _ a b hb => by cases hb) ?_
    · intro _ s
      have hf := fates_left t.cfg.maxDeliveries t.cfg.ackWait v.fate (fun c => decide ((c, conn) ∈ v.members)) s
      cases hfs : v.fate s with
      | held c' t' k =>
        rw [hfs] at hf
        simp only at hf
        by_cases hc : (c', conn) ∈ v.members
        · right; right; left
          refine ⟨c', t', k, rfl, ?_, .inr (.inl ⟨conn, order, rfl, hc⟩)⟩
          rw [if_pos (by simpa using hc)] at hf
          exact hf
        · left
          rw [if_neg (by simpa using hc)] at hf
          exact hf
      | _ => left; rw [hfs] at hf; exact hf
    · intro c' cn hm
      exact .inl (List.mem_filter.1 hm).1
  | fetch g c gen l p =>
    refine effect_same ?_ (fun b hb => by cases hb) (fun a b hb => by cases hb) rfl rfl rfl rfl
    simp only [Topic.step]; split <;> rfl
  | attempt id now =>
    exact hans now _ (attempt_rel ht h id now).2.1 (.inl ⟨id, rfl⟩) (fun b hb => by cases hb) (fun a b hb => by cases hb)
  | giveUp id =>
    refine effect_same ?_ (fun b hb => by cases hb) (fun a b hb => by cases hb) rfl rfl rfl rfl
    simp only [Topic.step]
    split
    · rfl
    · split
      · simp [Topic.endFetch, Out.gives]
      · rfl
  | finish id now =>
    refine hans now _ ?_ (.inr ⟨id, rfl⟩) (fun b hb => by cases hb) (fun a b hb => by cases hb)
    simp only [Topic.step]
    split
    · intro q ms hh; cases hh
    · split
      · exact (finishCold_rel h _ _ now).2.1
      · intro q ms hh; cases hh
  | abort id => exact effect_same rfl (fun b hb => by cases hb) (fun a b hb => by cases hb) rfl rfl rfl rfl
  | ack g c gen s =>
    rcases ack_rel h g c gen s with ⟨e, he, _⟩ | ⟨h1, _⟩
    · simp only [Topic.step, he]
      exact effect_same rfl (fun b hb => by cases hb) (fun a b hb => by cases hb) rfl rfl rfl rfl
    · simp only [Topic.step, h1]
      simp only [View.step]
      by_cases hn : g = name
      · subst hn
        simp only [if_pos]
        refine .other _ _ _ rfl (fun b hb => by cases hb) rfl ?_ (fun hk => hk) (fun hk _ => hk) (fun _ a b hb => by cases hb)
          (fun c cn hm => .inl hm)
        intro _ s'
        by_cases hs : s = s'
        · subst hs
          right; left
          obtain ⟨_, _, _, t', k, hh⟩ := (ack_iff h c gen s).1 h1
          refine ⟨c, gen, rfl, rfl, ⟨c, t', k, hh⟩, ?_⟩
          show Fate.step t.cfg.maxDeliveries t.cfg.ackWait s (v.fate s) (.acked s) = _
          cases v.fate s <;> simp [Fate.step]
        · left
          show Fate.step t.cfg.maxDeliveries t.cfg.ackWait s' (v.fate s') (.acked s) = _
          cases v.fate s' <;> simp [Fate.step, hs]
      · rw [if_neg hn]
        exact effect_same rfl (fun b hb => by cases hb) (fun a b hb => by cases hb) rfl rfl rfl rfl
  | seek g b =>
    by_cases hn : g = name
    · subst hn
      simp only [View.step, if_pos]
      exact .seek b _ rfl
    · simp only [View.step, if_neg hn]
      exact effect_same rfl (fun b hb => by cases hb; exact hn rfl) (fun a b hb => by cases hb) rfl rfl rfl rfl
  | tick now order =>
    simp only [View.step]
    refine .other _ _ _ rfl (fun b hb => by cases hb) rfl ?_ (fun hk => hk) (fun hk _ => hk) (fun _ a b hb => by cases hb)
      (fun c cn hm => .inl hm)
    intro _ s
    have hf : (v.obs t.cfg.maxDeliveries t.cfg.ackWait [.tick now]).fate s
        = Fate.step t.cfg.maxDeliveries t.cfg.ackWait s (v.fate s) (.tick now) := rfl
    cases hfs : v.fate s with
    | held c t' k =>
      rw [hfs] at hf
      by_cases hd : now - t' > t.cfg.ackWait
      · right; right; left
        refine ⟨c, t', k, rfl, ?_, .inr (.inr ⟨now, order, rfl, hd⟩)⟩
        rw [hf]
        simp only [Fate.step, if_pos hd]
      · left
        rw [hf]
        simp only [Fate.step, if_neg hd]
    | _ => left; rw [hfs] at hf; exact hf
  | evictLoad => exact effect_same rfl (fun b hb => by cases hb) (fun a b hb => by cases hb) rfl rfl rfl rfl
  | evictRun =>
    refine effect_same ?_ (fun b hb => by cases hb) (fun a b hb => by cases hb) rfl rfl rfl rfl
    simp only [Topic.step]; split <;> rfl
  | save order => exact effect_same rfl (fun b hb => by cases hb) (fun a b hb => by cases hb) rfl rfl rfl rfl
  | retainSend =>
    refine effect_same ?_ (fun b hb => by cases hb) (fun a b hb => by cases hb) rfl rfl rfl rfl
    simp only [Topic.step]; split <;> rfl
  | retainDone =>
    simp only [Topic.step]
    split
    · simp only [View.step]
      refine .other _ _ _ rfl (fun b hb => by cases hb) rfl ?_ (fun hk => hk) (fun hk _ => hk) (fun _ a b hb => by cases hb)
        (fun c cn hm => .inl hm)
      intro _ s
      show fates t.cfg.maxDeliveries t.cfg.ackWait v.fate (.removed _) s = _ ∨ _
      rw [fates_removed]
      simp only
      split
      · next hs => exact .inr (.inr (.inr ⟨_, trivial, rfl, hs, (by
          show fates t.cfg.maxDeliveries t.cfg.ackWait v.fate (.removed _) s = _
          rw [fates_removed]; exact if_pos hs)⟩))
      · exact .inl rfl
    · exact effect_same rfl (fun b hb => by cases hb) (fun a b hb => by cases hb) rfl rfl rfl rfl
  | read f l =>
    refine effect_same ?_ (fun b hb => by cases hb) (fun a b hb => by cases hb) rfl rfl rfl rfl
    simp only [Topic.step, Topic.startRead]; split <;> rfl
  | readDone id =>
    refine effect_same ?_ (fun b hb => by cases hb) (fun a b hb => by cases hb) rfl rfl rfl rfl
    simp only [Topic.step]; split <;> rfl
  | storage now =>
    refine effect_same ?_ (fun b hb => by cases hb) (fun a b hb => by cases hb) rfl rfl rfl rfl
    simp only [Topic.step]; split <;> rfl
  | flush now => exact effect_same rfl (fun b hb => by cases hb) (fun a b hb => by cases hb) rfl rfl rfl rfl
  | leak start n now => exact effect_same rfl (fun b hb => by cases hb) (fun a b hb => by cases hb) rfl rfl rfl rfl
  | closeHandle start now => exact effect_same rfl (fun b hb => by cases hb) (fun a b hb => by cases hb) rfl rfl rfl rfl

/-- The effect of the event after a history. -/
theorem Started.effect {crc : Bytes → Nat} {t : Topic} (h : Started crc t) (name : Str) (es : List Ev) (e : Ev)
    (hnd : (joinIds name es).Nodup) :
    Effect t.cfg.maxDeliveries t.cfg.ackWait name (viewAfter crc t name es) (e, ((t.run crc es).step crc e).2)
      (viewAfter crc t name (es ++ [e])) := by
  obtain ⟨J, h1, h2, h3, _⟩ := h.reach name es hnd
  have := h1.effect h2 crc e
  rw [h3] at this
  rw [viewAfter_snoc]
  exact this

/-! ### Histories -/

/-- Induction over the events of a history that come after `es1`. -/
theorem hist_ind {crc : Bytes → Nat} {t : Topic} {name : Str} (hst : Started crc t)
    (P : List Ev → View → Prop) (ok : Ev → Prop)
    (hP : ∀ es e v', (joinIds name (es ++ [e])).Nodup → ok e → P es (viewAfter crc t name es) →
      Effect t.cfg.maxDeliveries t.cfg.ackWait name (viewAfter crc t name es) (e, ((t.run crc es).step crc e).2) v' →
      P (es ++ [e]) v')
    (es2 : List Ev) : ∀ es1, (joinIds name (es1 ++ es2)).Nodup → (∀ e ∈ es2, ok e) → P es1 (viewAfter crc t name es1) →
      P (es1 ++ es2) (viewAfter crc t name (es1 ++ es2)) := by
  induction es2 with
  | nil => intro es1 _ _ h; simpa using h
  | cons e es ih =>
    intro es1 hnd hok h
    have e1 : es1 ++ e :: es = (es1 ++ [e]) ++ es := by simp
    rw [e1] at hnd ⊢
    refine ih (es1 ++ [e]) hnd (fun e' he' => hok e' (List.mem_cons_of_mem _ he')) ?_
    have hnd1 := joinIds_prefix hnd
    have heff := hst.effect name es1 e (joinIds_prefix hnd1)
    exact hP es1 e _ hnd1 (hok e List.mem_cons_self) h heff

theorem Effect.gives_legal {max wait : Nat} {name : Str} {v v' : View} {e : Ev} {o : Out}
    (h : Effect max wait name v (e, o) v') {s : Nat} (hs : s ∈ o.gives name) :
    (v.fate s = .fresh ∨ ∃ k, v.fate s = .waiting k ∧ k < max)
    ∧ (∃ c now, v'.fate s = .held c now ((v.fate s).count + 1)) ∧ (o.gives name).count s = 1 ∧ v.known = true := by
  cases h with
  | delivery _ q ms now hq hl ha hk he =>
    simp only [Out.gives, if_pos hq] at hs ⊢
    obtain ⟨a1, a2, a3⟩ := legal_mem hl hs
    refine ⟨a1, ⟨q.consumer, now, ?_⟩, a3, hk (fun h => by subst h; cases hs)⟩
    simp only [View.obs]
    rw [foldl_fates]
    exact a2
  | other _ _ _ hg => rw [hg] at hs; cases hs
  | seek b o hg => rw [hg] at hs; cases hs

/-- A message that is not delivered by the event and not touched otherwise. -/
theorem Effect.keeps {max wait : Nat} {name : Str} {v v' : View} {e : Ev} {o : Out}
    (h : Effect max wait name v (e, o) v') (hns : ∀ b, e ≠ .seek name b)
    (hk : v.known = true ∨ ∀ conn c, e ≠ .join name conn c) {s : Nat}
    (hg : s ∉ o.gives name) :
    v'.fate s = v.fate s
    ∨ (∃ c gen, e = .ack name c gen s ∧ o = .ok ∧ (∃ c' t k, v.fate s = .held c' t k) ∧ v'.fate s = .acked)
    ∨ (∃ c at_ k, v.fate s = .held c at_ k ∧ v'.fate s = (v.fate s).release max
        ∧ ((∃ gen order, e = .leave name c gen order ∧ o = .ok)
          ∨ (∃ conn order, e = .disconnect conn order ∧ (c, conn) ∈ v.members)
          ∨ (∃ now order, e = .tick now order ∧ now - at_ > wait)))
    ∨ (∃ head, e = .retainDone ∧ o = .retained head ∧ s < head ∧ v'.fate s = .removed) := by
  cases h with
  | delivery _ q ms now hq hl ha hk he =>
    simp only [Out.gives, if_pos hq] at hg
    left
    simp only [View.obs]
    rw [foldl_fates]
    exact deliveries_other hg _
  | other _ _ _ _ _ _ hf => exact hf hk s
  | seek b o hg => exact absurd rfl (hns b)

theorem Effect.known {max wait : Nat} {name : Str} {v v' : View} {e : Ev} {o : Out}
    (h : Effect max wait name v (e, o) v') (hk : v.known = true) : v'.known = true := by
  cases h with
  | delivery => exact hk
  | other _ _ _ _ _ _ _ hk' => exact hk' hk
  | seek => rfl

theorem Effect.unknown {max wait : Nat} {name : Str} {v v' : View} {e : Ev} {o : Out}
    (h : Effect max wait name v (e, o) v') (hk : v.known = false) (hns : ∀ b, e ≠ .seek name b)
    (hnj : ∀ conn c, e ≠ .join name conn c) : v'.known = false := by
  cases h with
  | delivery => exact hk
  | other _ _ _ _ _ _ _ _ hx => exact hx hk hnj
  | seek b => exact absurd rfl (hns b)

theorem Effect.members {max wait : Nat} {name : Str} {v v' : View} {e : Ev} {o : Out}
    (h : Effect max wait name v (e, o) v') {c conn : Str} (hm : (c, conn) ∈ v'.members) :
    (c, conn) ∈ v.members ∨ e = .join name conn c := by
  cases h with
  | delivery => exact .inl hm
  | other _ _ _ _ _ _ _ _ _ _ hm' => exact hm' c conn hm
  | seek => cases hm

/-- Members have joined. -/
theorem members_joined {crc : Bytes → Nat} {t : Topic} (hst : Started crc t) {name : Str} (es1 es2 : List Ev)
    (hnd : (joinIds name (es1 ++ es2)).Nodup) {c conn : Str}
    (hm : (c, conn) ∈ (viewAfter crc t name (es1 ++ es2)).members) :
    (c, conn) ∈ (viewAfter crc t name es1).members ∨ Ev.join name conn c ∈ es2 := by
  induction es2 generalizing es1 with
  | nil => left; simpa using hm
  | cons e es ih =>
    have e1 : es1 ++ e :: es = (es1 ++ [e]) ++ es := by simp
    rw [e1] at hnd hm
    rcases ih (es1 ++ [e]) hnd hm with h | h
    · have heff := hst.effect name es1 e (joinIds_prefix (joinIds_prefix hnd))
      rcases heff.members h with h | h
      · exact .inl h
      · exact .inr (by rw [h]; exact List.mem_cons_self)
    · exact .inr (List.mem_cons_of_mem _ h)

theorem joinIds_mem {name conn c : Str} {es : List Ev} (h : Ev.join name conn c ∈ es) : c ∈ joinIds name es := by
  induction es with
  | nil => cases h
  | cons e es ih =>
    rcases List.mem_cons.1 h with h | h
    · subst h; simp [joinIds]
    · have := ih h
      cases e with
      | join g cn c' => simp only [joinIds]; split <;> simp [this]
      | _ => exact this

theorem isSeek_iff {name : Str} {e : Ev} : e.isSeek name = true ↔ ∃ b, e = .seek name b := by
  cases e with
  | seek g b =>
    simp only [Ev.isSeek, decide_eq_true_eq, Ev.seek.injEq]
    exact ⟨fun h => ⟨b, h, rfl⟩, fun ⟨_, h, _⟩ => h⟩
  | _ => simp [Ev.isSeek]

theorem sinceSeek_snoc (name : Str) (s : Nat) (h : List (Ev × Out)) (e : Ev) (o : Out) [Decidable (∃ b, e = .seek name b)] :
    sinceSeek name s (h ++ [(e, o)])
      = if ∃ b, e = .seek name b then 0 else sinceSeek name s h + (o.gives name).count s := by
  unfold sinceSeek
  rw [List.foldl_append]
  simp only [List.foldl_cons, List.foldl_nil]
  by_cases hb : e.isSeek name = true
  · rw [if_pos hb, if_pos (isSeek_iff.1 hb)]
  · rw [if_neg hb, if_neg (fun x => hb (isSeek_iff.2 x))]

/-- How often message `s` has been delivered to the group since its last seek, against its fate. -/
def Counted (max : Nat) (known : Bool) (n : Nat) : Fate → Prop
  | .fresh => n = 0 ∧ known = true
  | .held _ _ k => n = k ∧ 1 ≤ k ∧ k ≤ max
  | .waiting k => n = k ∧ 1 ≤ k ∧ k < max
  | .gaveUp => n = max
  | .acked => 1 ≤ n ∧ n ≤ max
  | .removed => n ≤ max ∧ (known = false → n = 0)
  | .skipped => n = 0

theorem counted_unknown {crc : Bytes → Nat} {t : Topic} (hst : Started crc t) {name : Str} (s : Nat) (es : List Ev)
    (hnd : (joinIds name es).Nodup) :
    Counted t.cfg.maxDeliveries (viewAfter crc t name es).known (sinceSeek name s (t.trace crc es))
      ((viewAfter crc t name es).fate s)
    ∧ ((viewAfter crc t name es).known = false → sinceSeek name s (t.trace crc es) = 0
        ∧ ((viewAfter crc t name es).fate s = .skipped ∨ (viewAfter crc t name es).fate s = .removed)) := by
  have key := hist_ind (name := name) hst
    (fun es v => Counted t.cfg.maxDeliveries v.known (sinceSeek name s (t.trace crc es)) (v.fate s)
      ∧ (v.known = false → sinceSeek name s (t.trace crc es) = 0 ∧ (v.fate s = .skipped ∨ v.fate s = .removed)))
    (fun _ => True) ?_ es [] (by simpa using hnd) (fun _ _ => trivial) ?_
  · simpa using key
  · intro es e v' hnd _ ⟨h1, h2⟩ heff
    have htr : t.trace crc (es ++ [e]) = t.trace crc es ++ [(e, ((t.run crc es).step crc e).2)] := by
      rw [trace_append]; rfl
    have : Decidable (∃ b, e = .seek name b) := Classical.propDecidable _
    rw [htr, sinceSeek_snoc]
    generalize sinceSeek name s (t.trace crc es) = n at *
    generalize ((t.run crc es).step crc e).2 = o at *
    by_cases hsk : ∃ b, e = .seek name b
    · obtain ⟨b, hb⟩ := hsk
      subst hb
      rw [if_pos ⟨b, rfl⟩]
      cases heff with
      | delivery _ _ _ _ _ _ _ _ he => rcases he with ⟨_, h⟩ | ⟨_, h⟩ <;> cases h
      | other _ _ _ _ hs => exact absurd rfl (hs b)
      | seek b o hg =>
        refine ⟨?_, fun h => by cases h⟩
        have := fates_restarted t.cfg.maxDeliveries t.cfg.ackWait (viewAfter crc t name es).fate
          (if b = true then (viewAfter crc t name es).next else (viewAfter crc t name es).head) s
        simp only [View.obs, List.foldl_cons, List.foldl_nil]
        rw [this]
        generalize (if b = true then (viewAfter crc t name es).next else (viewAfter crc t name es).head) = first
        split
        · exact ⟨rfl, rfl⟩
        · rfl
    · rw [if_neg hsk]
      have hns : ∀ b, e ≠ .seek name b := fun b hb => hsk ⟨b, hb⟩
      by_cases hg : s ∈ o.gives name
      · obtain ⟨a1, ⟨c, now, a2⟩, a3, a4⟩ := heff.gives_legal hg
        rw [a3]
        have hk' := heff.known a4
        refine ⟨?_, fun h => by rw [hk'] at h; cases h⟩
        rw [a2]
        rcases a1 with a1 | ⟨k, a1, a5⟩
        · rw [a1] at h1 ⊢
          have := hst.1
          simp only [Counted, Fate.count] at h1 ⊢
          omega
        · rw [a1] at h1 ⊢
          simp only [Counted, Fate.count] at h1 ⊢
          omega
      · rw [List.count_eq_zero_of_not_mem hg, Nat.add_zero]
        by_cases hkj : (viewAfter crc t name es).known = true ∨ ∀ conn c, e ≠ .join name conn c
        · -- known afterwards iff known before
          have hkn : v'.known = (viewAfter crc t name es).known := by
            cases hkk : (viewAfter crc t name es).known with
            | true => exact heff.known hkk
            | false =>
              rcases hkj with h | h
              · rw [hkk] at h; cases h
              · cases heff with
                | delivery => exact hkk
                | other _ _ _ _ _ _ _ _ hk' => exact hk' hkk h
                | seek b o hg => exact absurd rfl (hns b)
          rw [hkn]
          rcases heff.keeps hns hkj hg with h | ⟨c, gen, _, _, ⟨c', t', k, h⟩, h'⟩ | ⟨c, t', k, h, h', _⟩ | ⟨hd, _, _, _, h⟩
          · rw [h]; exact ⟨h1, h2⟩
          · rw [h] at h1 h2
            rw [h']
            refine ⟨?_, fun hk => ?_⟩
            · simp only [Counted] at h1 ⊢; omega
            · rcases (h2 hk).2 with h | h <;> cases h
          · rw [h] at h1 h2 h'
            rw [h']
            refine ⟨?_, fun hk => ?_⟩
            · simp only [Fate.release]
              split
              · simp only [Counted] at h1 ⊢; omega
              · simp only [Counted] at h1 ⊢; omega
            · rcases (h2 hk).2 with h | h <;> cases h
          · rw [h]
            have hle : n ≤ t.cfg.maxDeliveries := by
              revert h1
              cases (viewAfter crc t name es).fate s <;> simp only [Counted] <;> omega
            exact ⟨⟨hle, fun hk => (h2 hk).1⟩, fun hk => ⟨(h2 hk).1, .inr rfl⟩⟩
        · have hk : (viewAfter crc t name es).known = false := by
            cases h : (viewAfter crc t name es).known with
            | true => exact absurd (.inl h) hkj
            | false => rfl
          have hj : ∃ conn c, e = .join name conn c := by
            apply Classical.byContradiction
            intro hh
            exact hkj (.inr (fun conn c he => hh ⟨conn, c, he⟩))
          obtain ⟨conn, c, he⟩ := hj
          cases heff with
          | delivery _ _ _ _ _ _ _ _ hev => subst he; rcases hev with ⟨_, h⟩ | ⟨_, h⟩ <;> cases h
          | other _ _ _ _ _ _ _ _ _ hnew =>
            obtain ⟨b1, b2⟩ := hnew hk conn c he
            refine ⟨?_, fun h => by rw [b1] at h; cases h⟩
            rw [b2 s]
            split
            · exact ⟨(h2 hk).1, b1⟩
            · exact (h2 hk).1
          | seek b o hg => exact absurd rfl (hns b)
  · constructor
    · show Counted _ (mhas t.groups name) 0 _
      simp only [viewAfter, View.after, Topic.trace, List.foldl_nil, View.start]
      cases hg : mget t.groups name with
      | none => rfl
      | some g =>
        simp only
        split
        · exact ⟨rfl, by simp [mhas, hg]⟩
        · rfl
    · intro hk
      refine ⟨rfl, .inl ?_⟩
      simp only [viewAfter, View.after, Topic.trace, List.foldl_nil, View.start] at hk ⊢
      cases hg : mget t.groups name with
      | none => rfl
      | some g => simp [mhas, hg] at hk

theorem settled_iff {head : Nat} {g : Group} {F : Nat → Fate} (h : GInv head g F) (s : Nat) :
    (F s).settled = true ↔ s < g.next ∧ mget g.pending s = none ∧ s ∉ g.redeliver := by
  have hc := h.core
  have h1 := hc.fresh s
  constructor
  · intro hs
    refine ⟨?_, ?_, ?_⟩
    · apply Nat.lt_of_not_le
      intro hn
      rw [h1.2 hn] at hs; cases hs
    · cases hp : mget g.pending s with
      | none => rfl
      | some p =>
        rw [(hc.held s p.consumer p.at_ p.count).2 hp] at hs; cases hs
    · intro hm
      obtain ⟨k, hk⟩ := hc.redAtt s hm
      rw [(hc.waiting s k).2 ⟨hm, hk⟩] at hs; cases hs
  · rintro ⟨a, b, c⟩
    cases hf : F s with
    | fresh => have := h1.1 hf; omega
    | held c t k => rw [(hc.held s c t k).1 hf] at b; cases b
    | waiting k => exact absurd ((hc.waiting s k).1 hf).1 c
    | _ => rfl

/-- A message that is settled stays settled, unless the group is sought. -/
theorem Effect.settled {max wait : Nat} {name : Str} {v v' : View} {e : Ev} {o : Out} (heff : Effect max wait name v (e, o) v')
    (hns : ∀ b, e ≠ .seek name b) (hk : v.known = true) {s : Nat} (hf : (v.fate s).settled = true) :
    (v'.fate s).settled = true := by
  have hng : s ∉ o.gives name := by
    intro hg
    rcases (heff.gives_legal hg).1 with h | ⟨k, h, _⟩ <;> rw [h] at hf <;> cases hf
  rcases heff.keeps hns (.inl hk) hng with h | ⟨_, _, _, _, _, h⟩ | ⟨c', t', k', h, _, _⟩ | ⟨_, _, _, _, h⟩
  · rw [h]; exact hf
  · rw [h]; rfl
  · rw [h] at hf; cases hf
  · rw [h]; rfl

end Verif.Stream
