import Verif.Spec.QueueAgain
import Verif.Proofs.QueueOwed
import Verif.Props.QueueCrashRpc

/-!
# C123: at least once, across crashes

The English statement is in `/verif/properties.jsonl`.  The server of these theorems (`QueueHost`) may crash at any moment and start
again from what the writers of its queues have committed.
-/

namespace Verif.Rpc

open Verif Verif.Wire Verif.Sdk
open Verif.Queue (Config Op MEvent Event Mgr life Fresh pushIds QInner era eraSys evsOn opsOf ValidHist eventIds tries)

variable {E I : Type} {cfg : Config} {batch : Nat} {supply : Nat → Queue.Id} {bg : I → Option MEvent} {A : List (Act I)}

/-- Whoever is handed the message in the history of the queue gets it in the answer to a consume. -/
theorem Stormy.delivered_act (h : Stormy cfg batch supply bg A) {q : Str} {u v w : List (Act I)} {b a : Act I} {o o' : Op} {x : Config × List Event} {k : Nat}
    (hs : A = u ++ a :: (v ++ b :: w)) (ha : eventOf batch supply bg (u.countP isPush) a = some (.op q o)) (hok : o.ok)
    (hk : k = u.countP isPush + if isPush a then 1 else 0)
    (hx : era cfg q (events batch supply bg 0 u) = some x) {id : Queue.Id} (hd : ∀ a ∈ v, ¬ deletes q a) {k' : Nat}
    (hb : eventOf batch supply bg k' b = some (.op q o')) (hok' : o'.ok)
    (hm : id ∈ (Queue.step (eraSys (x.1, x.2 ++ [.op o] ++ evsOn q (events batch supply bg k v))).q o').2.1.delivered) :
    ∃ l opts t r, b = .did l (.qConsume q opts) t r ∧ uuidBytes id ∈ handedIds r ∧ ∀ s, Queue.handoutAt o' = some s → s = t := by
  have hera := era_on (cfg := cfg) h.tasks ha hok hk hx (v := v) hd
  have hlist : x.2 ++ .op o :: evsOn q (events batch supply bg k v) = x.2 ++ [.op o] ++ evsOn q (events batch supply bg k v) := by simp
  rw [hlist] at hera
  rcases event_of_op h.tasks hb with ⟨l2, opts2, pl3, now2, r2, rfl, rfl⟩ | ⟨l2, opts2, now2, r2, rfl, rfl⟩ | ⟨l2, i2, now2, r2, rfl, rfl⟩ |
    ⟨l2, i2, reason2, now2, r2, rfl, rfl⟩ | ⟨_, _, _, _, _, rfl⟩ | ho
  · simp [Queue.step, Queue.Out.delivered] at hm
  · refine ⟨l2, opts2, now2, r2, rfl, ?_, fun s hs' => by simpa [Queue.handoutAt] using hs'.symm⟩
    rcases h.consume (u := u ++ a :: v) (l := l2) (now := now2) (q := q) (opts := opts2) (r := r2) (w := w)
      (by rw [hs]; simp) with ⟨_, k⟩ | ⟨y, msgs, k1, k2, k3, k4⟩
    · rcases k with k | k
      · rw [hera] at k; cases k
      · exact absurd hok' k.1
    · rw [hera] at k1
      injection k1 with k1
      subst k1
      rw [k3] at hm
      rw [handed_ids k4]
      obtain ⟨m, hm, hmi⟩ := List.mem_map.1 hm
      exact List.mem_map.2 ⟨m, hm, by rw [← hmi]⟩
  · rw [ack_quiet] at hm; cases hm
  · rw [nack_quiet] at hm; cases hm
  · rw [tick_quiet] at hm; cases hm
  · rw [ho.2.1] at hm; cases hm

theorem tries_single {id : Queue.Id} {c : Config} {es : List Event} {F : List Event} (hF : F.length ≤ 1) :
    tries id c es F ≤ 1 ∧ (tries id c es F ≠ 0 → ∃ o, F = [.op o] ∧ id ∈ (Queue.step (eraSys (c, es)).q o).2.1.delivered) := by
  match F, hF with
  | [], _ => exact ⟨Nat.zero_le _, fun h => absurd rfl h⟩
  | [e], _ =>
    cases e with
    | op o =>
      simp only [tries]
      split
      · next hm => exact ⟨by omega, fun _ => ⟨o, rfl, hm⟩⟩
      · exact ⟨by omega, fun h => absurd rfl h⟩
    | commit k => exact ⟨Nat.zero_le _, fun h => absurd rfl h⟩
    | restart now => exact ⟨Nat.zero_le _, fun h => absurd rfl h⟩

theorem evs_single (q : Str) (k : Nat) (a : Act I) : (evsOn q (events batch supply bg k [a])).length ≤ 1 := by
  unfold evsOn
  refine Nat.le_trans (List.length_filterMap_le _ _) ?_
  simp only [events, List.append_nil]
  cases eventOf batch supply bg k a <;> simp

/-- The handouts in the history of the queue are consumes. -/
theorem Stormy.tries_le (h : Stormy cfg batch supply bg A) {q : Str} {u : List (Act I)} {a : Act I} {o : Op} {x : Config × List Event} {k : Nat}
    (ha : eventOf batch supply bg (u.countP isPush) a = some (.op q o)) (hok : o.ok)
    (hk : k = u.countP isPush + if isPush a then 1 else 0)
    (hx : era cfg q (events batch supply bg 0 u) = some x) {id : Queue.Id} (p v : List (Act I)) (w : List (Act I)) (hs : A = u ++ a :: (p ++ v ++ w))
    (hd : ∀ a ∈ p ++ v, ¬ deletes q a) :
    tries id x.1 (x.2 ++ [.op o] ++ evsOn q (events batch supply bg k p)) (evsOn q (events batch supply bg (k + p.countP isPush) v)) ≤
      v.countP (gives q (uuidBytes id)) := by
  induction v using Sdk.snoc_ind generalizing w with
  | h0 => simp [events, evsOn, tries]
  | h1 v b ih =>
    have hd' : ∀ a ∈ p ++ v, ¬ deletes q a := fun a ha => hd a (by rw [← List.append_assoc]; exact List.mem_append_left _ ha)
    have i1 := ih (b :: w) (by rw [hs]; simp) hd'
    have hpv : evsOn q (events batch supply bg k (p ++ v)) =
        evsOn q (events batch supply bg k p) ++ evsOn q (events batch supply bg (k + p.countP isPush) v) := by
      rw [events_append, Queue.evsOn_append]
    rw [events_append, Queue.evsOn_append, Queue.tries_append, List.countP_append, List.append_assoc _ (evsOn q _) (evsOn q _), ← hpv]
    obtain ⟨t1, t2⟩ := tries_single (id := id) (c := x.1) (es := x.2 ++ [.op o] ++ evsOn q (events batch supply bg k (p ++ v)))
      (evs_single (batch := batch) (supply := supply) (bg := bg) q (k + p.countP isPush + v.countP isPush) b)
    by_cases h0 : tries id x.1 (x.2 ++ [.op o] ++ evsOn q (events batch supply bg k (p ++ v)))
        (evsOn q (events batch supply bg (k + p.countP isPush + v.countP isPush) [b])) = 0
    · omega
    · obtain ⟨o', e1, e2⟩ := t2 h0
      obtain ⟨v1, b', v2, f1, f2, f3, f4⟩ := evs_split h.tasks (E₁ := []) (E₂ := []) (by rw [e1]; rfl)
      have hv1 : v1 = [] ∧ b' = b := by
        cases v1 with
        | nil => simp at f1; exact ⟨rfl, f1.1.symm⟩
        | cons c v1 => simp at f1
      obtain ⟨rfl, rfl⟩ := hv1
      obtain ⟨l, opts, t, r, rfl, hr, _⟩ := h.delivered_act (v := p ++ v) (w := w) (by rw [hs]; simp) ha hok hk hx hd' f3 f4 e2
      have : List.countP (gives q (uuidBytes id)) [(.did l (.qConsume q opts) t r : Act I)] = 1 := by simp [gives, hr]
      omega

/-- An act that makes the messages of the queue available again. -/
theorem frees_event (ht : QTasks bg) {q : Str} {D k : Nat} {e : Act I} (he : freesFrom bg q D e) :
    ∃ ev, evsOn q (events batch supply bg k [e]) = [ev] ∧ Queue.releasesAt D ev := by
  have _ := ht
  rcases he with ⟨x, s, s', rfl, hb, h1, h2⟩ | ⟨s, hs, x, rfl, hb⟩
  · exact ⟨.op (.tick s s'), by simp [events, eventOf, hb, evsOn, Op.ok], h1, h2⟩
  · exact ⟨.restart s, by simp [events, eventOf, hb, evsOn], hs⟩

/-- A message that was written, that nobody acknowledged and that has deliveries left is handed out again once its timeouts are over, whatever
crashes. -/
theorem Stormy.again (h : Stormy cfg batch supply bg A) {u v₁ v₂ v₃ z : List (Act I)} {e : Act I} {l t l' now made vt D : Nat} {q : Str} {opts : PushOpts}
    {pl : Bytes} {opts' : ConsumeOpts} {r : Option Response}
    (hs : A = u ++ .did l (.qPush q opts pl) t (some .ok) :: (v₁ ++ v₂ ++ e :: v₃) ++ .did l' (.qConsume q opts') now r :: z)
    (hd : ∀ a ∈ v₁ ++ v₂ ++ e :: v₃, ¬ deletes q a) (hack : ∀ a ∈ v₁ ++ v₂ ++ e :: v₃, ¬ acks q (pushedId supply u) a)
    (hvt : ∀ l o t r, Act.did l (.qCreate q o) t r ∈ u → o.visibilityTimeoutMs.getD cfg.visibilityTimeout ≤ vt)
    (hmr : ∀ l o t r, Act.did l (.qCreate q o) t r ∈ u → (v₁ ++ v₂).countP (gives q (pushedId supply u)) < o.maxRetries.getD cfg.maxRetries)
    (htime : ∀ l o t r, Act.did l (.qConsume q o) t r ∈ v₁ ++ v₂ → pushedId supply u ∈ handedIds r → t + vt ≤ D)
    (hc : ∀ a ∈ v₁, ¬ crashes bg a)
    (hw : Stored ⟨(Mgr.new.run cfg (events batch supply bg 0 (u ++ .did l (.qPush q opts pl) t (some .ok) :: v₁))).1, made⟩ q (pushedId supply u))
    (he : freesFrom bg q D e) (h3 : ∀ a ∈ v₃, ¬ handsOut q (pushedId supply u) a) (hc3 : ∀ a ∈ v₃, ∀ s, crashesAt bg s a → D ≤ s)
    (hr : r ≠ none) (hn : (handed r).length < opts'.batchSize.getD batch) : (pushedId supply u, pl) ∈ handed r := by
  have hs1 : A = u ++ .did l (.qPush q opts pl) t (some .ok) :: (v₁ ++ v₂ ++ e :: v₃ ++ .did l' (.qConsume q opts') now r :: z) := by rw [hs]; simp
  have ha := h.answer hs1 (q := q) (o := .push (supply (u.countP isPush)) pl (opts.priority.getD 0) t) rfl
  have hsm := h.small hs1
  cases hx : era cfg q (events batch supply bg 0 u) with
  | none => rw [hx] at ha; simp [queueAnswer, Queue.missing] at ha
  | some w =>
    have hev : eventOf batch supply bg (u.countP isPush) (Act.did l (.qPush q opts pl) t (some .ok)) =
      some (.op q (.push (supply (u.countP isPush)) pl (opts.priority.getD 0) t)) := rfl
    have hk : u.countP isPush + 1 = u.countP isPush + if isPush (Act.did l (.qPush q opts pl) t (some .ok) : Act I) then 1 else 0 := rfl
    have hcfg : w.1.visibilityTimeout ≤ vt ∧ (v₁ ++ v₂).countP (gives q (pushedId supply u)) < w.1.maxRetries := by
      obtain ⟨u1, l2, o2, t2, r2, u2, e1, e2, _⟩ := life_acts h.tasks (era_to_life hx)
      simp only at e2
      rw [e2]
      exact ⟨hvt l2 o2 t2 r2 (by rw [e1]; simp), hmr l2 o2 t2 r2 (by rw [e1]; simp)⟩
    have hy := era_on (cfg := cfg) h.tasks hev trivial hk hx (v := v₁ ++ v₂ ++ e :: v₃) hd
    have hy1 := era_on (cfg := cfg) h.tasks hev trivial hk hx (v := v₁) (fun a ha => hd a (by simp [ha]))
    have hstY : Stormy cfg batch supply bg (u ++ .did l (.qPush q opts pl) t (some .ok) :: (v₁ ++ v₂ ++ e :: v₃)) := by subst hs; exact h.left
    have hst1 : Stormy cfg batch supply bg (u ++ .did l (.qPush q opts pl) t (some .ok) :: v₁) := by
      have : u ++ Act.did l (.qPush q opts pl) t (some .ok) :: (v₁ ++ v₂ ++ e :: v₃) =
        (u ++ .did l (.qPush q opts pl) t (some .ok) :: v₁) ++ (v₂ ++ e :: v₃) := by simp
      rw [this] at hstY
      exact hstY.left
    have hvY := hstY.fresh hy
    have hstored := hst1.stored hy1 hw
    have hval : beVal (pushedId supply u) = supply (u.countP isPush) := uuid_val hsm
    rw [hval] at hstored
    have hnore : ∀ now, Event.restart now ∉ evsOn q (events batch supply bg (u.countP isPush + 1) v₁) := by
      intro now hm
      obtain ⟨a, ha, hca⟩ := crash_event hm
      exact hc a ha ⟨now, hca⟩
    have hun : Queue.Unacked (supply (u.countP isPush)) D w.1 (w.2 ++ [.op (.push (supply (u.countP isPush)) pl (opts.priority.getD 0) t)])
        (evsOn q (events batch supply bg (u.countP isPush + 1) (v₁ ++ v₂ ++ e :: v₃))) := by
      intro E1 o E2 hE
      obtain ⟨w1, b, w2, ev, g1, hb, f4⟩ := evs_split h.tasks hE
      have hbm : b ∈ v₁ ++ v₂ ++ e :: v₃ := by rw [ev]; simp
      refine ⟨?_, ?_⟩
      · rintro rfl
        rcases event_of_op h.tasks hb with ⟨_, _, _, _, _, _, ho⟩ | ⟨_, _, _, _, _, ho⟩ | ⟨l2, i2, now2, r2, rfl, ho⟩ |
          ⟨_, _, _, _, _, _, ho⟩ | ⟨_, _, _, _, _, ho⟩ | ho
        · cases ho
        · cases ho
        · injection ho with ho
          have hfit := (h.exec (u ++ .did l (.qPush q opts pl) t (some .ok) :: w1) l2 (.qAck i2 q) now2 r2
            (w2 ++ .did l' (.qConsume q opts') now r :: z) (by rw [hs, ev]; simp) rfl).2.1
          have hl : i2.length = 16 := hfit.1
          refine hack _ hbm ⟨l2, now2, r2, ?_⟩
          rw [show pushedId supply u = i2 by unfold pushedId; rw [ho, val_uuid hl]]
        · cases ho
        · cases ho
        · exact ho.2.2.1 _ rfl
      · intro s hs' hm
        rw [← g1] at hm
        obtain ⟨l2, o2, t2, r2, rfl, hin, heq⟩ := h.delivered_act (v := w1) (w := w2 ++ .did l' (.qConsume q opts') now r :: z) (by rw [hs, ev]; simp)
          hev trivial hk hx (fun a ha => hd a (by rw [ev]; simp [ha])) hb f4 hm
        rw [heq s hs']
        rcases List.mem_append.1 hbm with hbm | hbm
        · have := htime l2 o2 t2 r2 hbm hin
          omega
        · rcases List.mem_cons.1 hbm with hbe | hbm
          · rcases he with ⟨_, _, _, he, _⟩ | ⟨_, _, _, he, _⟩ <;> rw [← hbe] at he <;> cases he
          · exact absurd ⟨l2, o2, t2, r2, rfl, hin⟩ (h3 _ hbm)
    have ht12 := h.tries_le (id := supply (u.countP isPush)) hev trivial hk hx [] (v₁ ++ v₂) (e :: v₃ ++ .did l' (.qConsume q opts') now r :: z)
      (by rw [hs]; simp) (fun a ha => hd a (List.mem_append_left _ ha))
    have ht3 := h.tries_le (id := supply (u.countP isPush)) hev trivial hk hx (v₁ ++ v₂ ++ [e]) v₃ (.did l' (.qConsume q opts') now r :: z)
      (by rw [hs]; simp) (fun a ha => hd a (by simpa using ha))
    have hz : v₃.countP (gives q (uuidBytes (supply (u.countP isPush)))) = 0 := by
      rw [List.countP_eq_zero]
      intro a ha3 hg
      unfold gives at hg
      split at hg
      · next l2 q2 o2 t2 r2 =>
        simp only [decide_eq_true_eq] at hg
        obtain ⟨rfl, hg⟩ := hg
        exact h3 _ ha3 ⟨l2, o2, t2, r2, rfl, hg⟩
      · cases hg
    obtain ⟨ev, hev1, hev2⟩ := frees_event (batch := batch) (supply := supply) (k := u.countP isPush + 1 + (v₁ ++ v₂).countP isPush) h.tasks he
    have hsp12 : evsOn q (events batch supply bg (u.countP isPush + 1) (v₁ ++ v₂)) =
        evsOn q (events batch supply bg (u.countP isPush + 1) v₁) ++ evsOn q (events batch supply bg (u.countP isPush + 1 + v₁.countP isPush) v₂) := by
      rw [events_append, Queue.evsOn_append]
    have hspe : evsOn q (events batch supply bg (u.countP isPush + 1) (v₁ ++ v₂ ++ [e])) =
        evsOn q (events batch supply bg (u.countP isPush + 1) v₁) ++ evsOn q (events batch supply bg (u.countP isPush + 1 + v₁.countP isPush) v₂) ++ [ev] := by
      rw [events_append, Queue.evsOn_append, hsp12, hev1]
    have hspl : evsOn q (events batch supply bg (u.countP isPush + 1) (v₁ ++ v₂ ++ e :: v₃)) =
        evsOn q (events batch supply bg (u.countP isPush + 1) v₁) ++ evsOn q (events batch supply bg (u.countP isPush + 1 + v₁.countP isPush) v₂) ++ [ev] ++
        evsOn q (events batch supply bg (u.countP isPush + 1 + (v₁ ++ v₂ ++ [e]).countP isPush) v₃) := by
      have : v₁ ++ v₂ ++ e :: v₃ = v₁ ++ v₂ ++ [e] ++ v₃ := by simp
      rw [this, events_append, Queue.evsOn_append, hspe]
    have hr3 : ∀ now, Event.restart now ∈ evsOn q (events batch supply bg (u.countP isPush + 1 + (v₁ ++ v₂ ++ [e]).countP isPush) v₃) → D ≤ now := by
      intro now hm
      obtain ⟨a, ha, hca⟩ := crash_event hm
      exact hc3 a ha now hca
    rw [hspl] at hy hvY hun
    rw [hspe] at ht3
    have hp0 : ∀ es : List Event, es ++ evsOn q (events batch supply bg (u.countP isPush + 1) ([] : List (Act I))) = es := by intro es; simp [events, evsOn]
    rw [hp0, List.countP_nil, Nat.add_zero, hsp12] at ht12
    have hgiv : (v₁ ++ v₂).countP (gives q (uuidBytes (supply (u.countP isPush)))) < w.1.maxRetries := hcfg.2
    generalize evsOn q (events batch supply bg (u.countP isPush + 1) v₁) = E₁ at *
    generalize evsOn q (events batch supply bg (u.countP isPush + 1 + v₁.countP isPush) v₂) = E₂ at *
    generalize evsOn q (events batch supply bg (u.countP isPush + 1 + (v₁ ++ v₂ ++ [e]).countP isPush) v₃) = E₃ at *
    have e1 : w.2 ++ Event.op (.push (supply (u.countP isPush)) pl (opts.priority.getD 0) t) :: (E₁ ++ E₂ ++ [ev] ++ E₃) =
        w.2 ++ [.op (.push (supply (u.countP isPush)) pl (opts.priority.getD 0) t)] ++ E₁ ++ E₂ ++ [ev] ++ E₃ := by simp
    have e2 : w.2 ++ Event.op (.push (supply (u.countP isPush)) pl (opts.priority.getD 0) t) :: E₁ =
        w.2 ++ [.op (.push (supply (u.countP isPush)) pl (opts.priority.getD 0) t)] ++ E₁ := by simp
    have e3 : w.2 ++ [Event.op (.push (supply (u.countP isPush)) pl (opts.priority.getD 0) t)] ++ (E₁ ++ E₂ ++ [ev]) =
        w.2 ++ [.op (.push (supply (u.countP isPush)) pl (opts.priority.getD 0) t)] ++ E₁ ++ E₂ ++ [ev] := by simp
    simp only [e1] at hy hvY
    rw [e2] at hstored
    rw [e3] at ht3
    obtain ⟨n, hfree⟩ := Queue.owed_again hvY hnore hun (by omega) hstored hev2 (by omega) hr3
    have hmem : Op.push (supply (u.countP isPush)) pl (opts.priority.getD 0) t ∈
        opsOf (w.2 ++ [.op (.push (supply (u.countP isPush)) pl (opts.priority.getD 0) t)] ++ E₁ ++ E₂ ++ [ev] ++ E₃) := by
      simp only [Queue.opsOf_append]; simp [opsOf]
    generalize w.2 ++ [Event.op (.push (supply (u.countP isPush)) pl (opts.priority.getD 0) t)] ++ E₁ ++ E₂ ++ [ev] ++ E₃ = H at *
    rcases h.consume hs with ⟨_, k⟩ | ⟨y, msgs, k1, k2, k3, k4⟩
    · rcases k with k | k
      · rw [hy] at k; cases k
      · exact absurd k.2 hr
    · rw [hy] at k1
      injection k1 with k1
      subst k1
      obtain ⟨a, ha⟩ := (Queue.sysInv w.1 hvY).q
      have ha' : Queue.RQ (eraSys (w.1, H)).q a (· ∈ eventIds H) := ha
      obtain ⟨s1, s2, s3⟩ := ha'.stepU (op := .consume (opts'.batchSize.getD batch) now) k2 (by simp [Op.pushId])
      rw [k3] at s3
      have ed : (Queue.sstep (eraSys (w.1, H)).q.cfg a (.consume (opts'.batchSize.getD batch) now)).2.delivered =
          (a.ready.take (opts'.batchSize.getD batch)).map (·.id) := by
        simp only [Queue.sstep, Op.req, Spec.Queue.step, Spec.Queue.Ans.delivered]
        rw [(Spec.Queue.serveN_eq _ _ _).1, List.map_map]; rfl
      rw [ed] at s3
      have s4 : msgs.map (·.id) = (a.ready.take (opts'.batchSize.getD batch)).map (·.id) := s3
      have hlen : msgs.length = min (opts'.batchSize.getD batch) a.ready.length := by
        have := congrArg List.length s4
        simpa using this
      rw [k4, List.length_map] at hn
      rw [List.take_of_length_le (by omega)] at s4
      obtain ⟨x, hx, hxi, _⟩ := hfree.waits ha'
      have hm : supply (u.countP isPush) ∈ msgs.map (·.id) := by
        rw [s4, ← hxi]; exact List.mem_map.2 ⟨x, hx, rfl⟩
      obtain ⟨m, hm, hmi⟩ := List.mem_map.1 hm
      have hm2 := (Queue.era_pushed (c := w.1) (es := H) hvY k2 k3).2 m hm
      rw [k4]
      refine List.mem_map.2 ⟨m, hm, ?_⟩
      have hmi' : m.id = supply (u.countP isPush) := hmi
      rw [hmi'] at hm2 ⊢
      rw [push_unique (by rw [Queue.pushIds_opsOf]; exact hvY.2) hm2 hmem]; rfl

/-- **C123** (partial: the names of queues do not end in `.db`, and the message was written before the first crash).  At least once: a `push` was
answered `ok`, and at some moment before the first crash after it (`es₁`) nothing about the message still had to be written.  Since then, whatever
crashed, nobody acknowledged the message and the queue was not deleted; it was handed out fewer times than the queue allows, the last
visibility timeout ending at `D`, and may have been refused.  Then the timeout task ran at `D` or later, or the server started at `D` or later
(`e`), and since then nobody was handed the message and the server was not started before `D`.  Then a `consume` that has room for it hands it out. -/
theorem C123_again_partial (pr : Printer) (srv : Server E I) {part : E → Queues} (hp : QueueHost srv cfg batch supply part bg) (e0 : E)
    (h0 : part e0 = {}) (es₁ es₂ : List (Ev I))
    {tr : List (Obs I)} (htr : tr = ((World.init e0).run pr srv (es₁ ++ es₂)).2) (ho : Ordinary pr srv tr) (hu : Uuids supply ((acts tr).countP isPush))
    (hn : ∀ l q o t r, Act.did l (.qCreate q o) t r ∈ acts tr → Queue.plainName q)
    {u v₁ v₂ v₃ z : List (Act I)} {e : Act I} {l t l' now vt D : Nat} {q : Str} {opts : PushOpts} {pl : Bytes} {opts' : ConsumeOpts} {r : Option Response}
    (h₁ : acts ((World.init e0).run pr srv es₁).2 = u ++ .did l (.qPush q opts pl) t (some .ok) :: v₁)
    (hw : Stored (part ((World.init e0).run pr srv es₁).1.engine) q (pushedId supply u)) (hc : ∀ a ∈ v₁, ¬ crashes bg a)
    (hs : acts tr = u ++ .did l (.qPush q opts pl) t (some .ok) :: (v₁ ++ v₂ ++ e :: v₃) ++ .did l' (.qConsume q opts') now r :: z)
    (hd : ∀ a ∈ v₁ ++ v₂ ++ e :: v₃, ¬ deletes q a) (hack : ∀ a ∈ v₁ ++ v₂ ++ e :: v₃, ¬ acks q (pushedId supply u) a)
    (hvt : ∀ l o t r, Act.did l (.qCreate q o) t r ∈ u → o.visibilityTimeoutMs.getD cfg.visibilityTimeout ≤ vt)
    (hmr : ∀ l o t r, Act.did l (.qCreate q o) t r ∈ u → (v₁ ++ v₂).countP (gives q (pushedId supply u)) < o.maxRetries.getD cfg.maxRetries)
    (htime : ∀ l o t r, Act.did l (.qConsume q o) t r ∈ v₁ ++ v₂ → pushedId supply u ∈ handedIds r → t + vt ≤ D)
    (he : freesFrom bg q D e) (h3 : ∀ a ∈ v₃, ¬ handsOut q (pushedId supply u) a) (hc3 : ∀ a ∈ v₃, ∀ s, crashesAt bg s a → D ≤ s)
    (hr : r ≠ none) (hm : (handed r).length < opts'.batchSize.getD batch) : (pushedId supply u, pl) ∈ handed r := by
  subst htr
  exact (stormy pr hp h0 _ ho hu hn).again hs hd hack hvt hmr htime hc (stored_at pr hp h0 es₁ es₂ ho h₁ hw) he h3 hc3 hr hm

/-- The hypotheses of `C123_again_partial` are met: the second message was handed out at 8, for 100 ms; nobody acknowledged it, the server crashed
and started again at 300, and at 301 the message is handed out again. -/
example : (uuidBytes 1, [0, 8]) ∈ handed (some (.data (exBatch [(1, [0, 8])]))) := by
  refine C123_again_partial (supply := fun i => i) exPrinter exCrashServer exCrashHost {} rfl exCrash1 (exCrash2 ++ exCrash3) exCrashRun.symm exCrashOrdinary
    exCrash_uuids exCrash_names (u := exCrashActs.take 4) (v₁ := [.ticked (.commit [97] 100)]) (v₂ := (exCrashActs.take 12).drop 6) (v₃ := [])
    (e := .ticked (.restart 300)) (z := exCrashActs.drop 14) (vt := 100) (D := 108)
    (l := 0) (t := 5) (l' := 4) (now := 301) (q := [97]) (opts := ⟨none⟩) (opts' := ⟨none, none⟩) (by rw [exCrashRun1]; rfl) (exCrash_stored1 _)
    (exCommit_calm rfl) rfl ?_ ?_ ?_ ?_ ?_ (.inr ⟨300, by decide, _, rfl, rfl⟩) (by simp) (by simp) (by simp) (by decide)
  · intro a ha
    simp only [exCrashActs, List.take, List.drop, List.cons_append, List.nil_append, List.mem_cons, List.not_mem_nil, or_false] at ha
    rintro ⟨_, _, _, rfl⟩
    simp at ha
  · intro a ha
    simp only [exCrashActs, List.take, List.drop, List.cons_append, List.nil_append, List.mem_cons, List.not_mem_nil, or_false] at ha
    rintro ⟨_, _, _, rfl⟩
    simp at ha
  · intro l o t r hm
    simp only [exCrashActs, List.take, List.mem_cons, List.not_mem_nil, or_false, reduceCtorEq, Act.did.injEq, Cmd.qCreate.injEq, false_and, and_false] at hm
    rw [hm.2.1.2]; decide
  · intro l o t r hm
    simp only [exCrashActs, List.take, List.mem_cons, List.not_mem_nil, or_false, reduceCtorEq, Act.did.injEq, Cmd.qCreate.injEq, false_and, and_false] at hm
    rw [hm.2.1.2]; decide
  · intro l o t r hm hi
    simp only [exCrashActs, List.take, List.drop, List.cons_append, List.nil_append, List.mem_cons, List.not_mem_nil, or_false, reduceCtorEq,
      Act.did.injEq, Cmd.qConsume.injEq, false_or] at hm
    rcases hm with ⟨_, _, rfl, _⟩ | ⟨_, _, rfl, rfl⟩
    · decide
    · exact absurd hi (by decide)

end Verif.Rpc
