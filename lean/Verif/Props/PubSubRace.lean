import Verif.Proofs.PubSubRace

/-!
# Property C73: overlapping publish/subscribe requests

Requests of all clients take their sections in any order.  Every request has a number of its own.
-/

namespace Verif.PubSub.Race

/-- C73: a publish that begins after a subscription has been answered puts exactly one copy of the message into the channel of
the subscriber, if the pattern matches the topic, the client stays connected and does not unsubscribe from that pattern –
whatever else is going on: other requests of the same client, other clients that come, go or are found dead. -/
theorem C73_reaches (a b e : List Ev) (c : Cid) (p t : Str) (d : Bytes) (keep : Option (Option Retained)) (sid pid : Nat)
    (hn : (starts (a ++ Ev.start sid (.subscribe c p) :: (b ++ Ev.start pid (.publish t d keep) :: e))).Nodup)
    (hp : Proper (a ++ Ev.start sid (.subscribe c p) :: (b ++ Ev.start pid (.publish t d keep) :: e)))
    (hconn : Ev.connect c ∈ a)
    (hrecv : Ev.gone c ∉ a ++ Ev.start sid (.subscribe c p) :: (b ++ Ev.start pid (.publish t d keep) :: e))
    (hstay : ∀ id, Ev.start id (.disconnect c) ∉ a ++ Ev.start sid (.subscribe c p) :: (b ++ Ev.start pid (.publish t d keep) :: e))
    (hfree : (run {} a).free (.unsubscribe c p))
    (hkeep : ∀ id, Ev.start id (.unsubscribe c p) ∉ b ++ e)
    (hsub : (run {} (a ++ Ev.start sid (.subscribe c p) :: b)).done sid)
    (hm : Matches (split p) (split t))
    (hpub : (run {} (a ++ Ev.start sid (.subscribe c p) :: (b ++ Ev.start pid (.publish t d keep) :: e))).done pid) :
    byTo pid c (outs {} (a ++ Ev.start sid (.subscribe c p) :: (b ++ Ev.start pid (.publish t d keep) :: e))) = [⟨pid, c, ⟨t, d⟩⟩] := by
  have hpp : hashLast (split p) = true := hp.1 sid c p (by simp)
  -- the subscription is in the tree from the moment it is answered
  have hin : ∀ e', (∃ e'', e = e' ++ e'') → Held c p sid (run {} (a ++ Ev.start sid (.subscribe c p) :: (b ++ Ev.start pid (.publish t d keep) :: e'))) := by
    rintro e' ⟨e'', rfl⟩
    have hcut : a ++ Ev.start sid (.subscribe c p) :: (b ++ Ev.start pid (.publish t d keep) :: (e' ++ e''))
        = (a ++ Ev.start sid (.subscribe c p) :: (b ++ Ev.start pid (.publish t d keep) :: e')) ++ e'' := by simp
    rw [hcut] at hn hp hrecv hstay
    rw [starts_append, List.nodup_append] at hn
    refine held hn.1 ⟨fun i d q h => hp.1 i d q (List.mem_append_left _ h), fun i d q h => hp.2 i d q (List.mem_append_left _ h)⟩
      hconn (fun h => hrecv (List.mem_append_left _ h)) (fun i h => hstay i (List.mem_append_left _ h)) hfree ?_
    intro i hi
    refine hkeep i ?_
    simp only [List.mem_append, List.mem_cons, reduceCtorEq, false_or, Ev.start.injEq, and_false] at hi ⊢
    rcases hi with hi | hi
    · exact .inl hi
    · exact .inr (.inl hi)
  -- once its task is gone, it stays gone
  have hgone : ∀ e', (∃ e'', e = e' ++ e'') →
      mget (run {} (a ++ Ev.start sid (.subscribe c p) :: (b ++ Ev.start pid (.publish t d keep) :: e'))).tasks sid = none := by
    intro e'
    induction e' using Verif.Sdk.snoc_ind with
    | h0 =>
      rintro ⟨e'', rfl⟩
      have : a ++ Ev.start sid (.subscribe c p) :: (b ++ [Ev.start pid (.publish t d keep)])
        = (a ++ Ev.start sid (.subscribe c p) :: b) ++ [Ev.start pid (.publish t d keep)] := by simp
      rw [this, run_snoc, task_stays (by simp)]
      · exact hsub
      · intro r hr
        cases hr
        rw [starts_append, List.nodup_append] at hn
        exact (List.nodup_cons.mp hn.2.1).1 (by rw [starts_append]; simp [starts])
    | h1 e' x ih =>
      rintro ⟨e'', rfl⟩
      have jh := ih ⟨x :: e'', by simp⟩
      have : a ++ Ev.start sid (.subscribe c p) :: (b ++ Ev.start pid (.publish t d keep) :: (e' ++ [x]))
        = (a ++ Ev.start sid (.subscribe c p) :: (b ++ Ev.start pid (.publish t d keep) :: e')) ++ [x] := by simp
      rw [this, run_snoc]
      by_cases hx : ∃ now, x = .next sid now
      · obtain ⟨now, rfl⟩ := hx
        simp only [step, jh]
      · rw [task_stays (fun now h => hx ⟨now, h⟩)]
        · exact jh
        · rintro r rfl
          rw [starts_append, List.nodup_append] at hn
          exact (List.nodup_cons.mp hn.2.1).1 (by rw [starts_append]; simp [starts, starts_append])
  have hdue : ∀ e', (∃ e'', e = e' ++ e'') →
      Due pid c ⟨t, d⟩ (outs {} (a ++ Ev.start sid (.subscribe c p) :: (b ++ Ev.start pid (.publish t d keep) :: e')))
        (mget (run {} (a ++ Ev.start sid (.subscribe c p) :: (b ++ Ev.start pid (.publish t d keep) :: e'))).tasks pid) := by
    intro e'
    induction e' using Verif.Sdk.snoc_ind with
    | h0 =>
      intro _
      have : a ++ Ev.start sid (.subscribe c p) :: (b ++ [Ev.start pid (.publish t d keep)])
        = (a ++ Ev.start sid (.subscribe c p) :: b) ++ [Ev.start pid (.publish t d keep)] := by simp
      rw [this, run_snoc]
      simp only [step, begin_]
      rw [mget_mset_same]
      exact rfl
    | h1 e' x ih =>
      rintro ⟨e'', rfl⟩
      have hpre : ∃ e''', e' ++ [x] ++ e'' = e' ++ e''' := ⟨x :: e'', by simp⟩
      have jh := ih hpre
      have hh := hin e' hpre
      have ht := hgone e' hpre
      have : a ++ Ev.start sid (.subscribe c p) :: (b ++ Ev.start pid (.publish t d keep) :: (e' ++ [x]))
        = (a ++ Ev.start sid (.subscribe c p) :: (b ++ Ev.start pid (.publish t d keep) :: e')) ++ [x] := by simp
      rw [this, run_snoc, outs_snoc]
      refine jh.step hh.live (mem_matchSubs.mpr ⟨_, hh.held.resolve_left (by rw [ht]; simp), (ematch_edges hpp).mpr hm⟩) ?_
      rintro r rfl
      rw [starts_append, List.nodup_append] at hn
      have h2 := (List.nodup_cons.mp hn.2.1).2
      rw [starts_append, List.nodup_append] at h2
      exact (List.nodup_cons.mp h2.2.1).1 (by simp [starts, starts_append])
  have h1 := hdue e ⟨[], by simp⟩
  have hdone : mget _ pid = none := hpub
  rw [hdone] at h1
  have hcut : a ++ Ev.start sid (.subscribe c p) :: (b ++ Ev.start pid (.publish t d keep) :: e)
      = (a ++ Ev.start sid (.subscribe c p) :: b) ++ Ev.start pid (.publish t d keep) :: e := by simp
  rw [hcut] at hn h1 ⊢
  refine (phase hn c).le.resolve_left ?_
  intro h2
  exact byTo_nil.mp h2 _ h1 ⟨rfl, rfl⟩

/-- Client 1 subscribes to `a/+` while client 2, whose receiver has ended, does so too; client 2 is found dead and removed by one
publish while another is being routed. -/
def exR : List Ev :=
  [.connect 1, .connect 2, .start 0 (.subscribe 2 [97, 47, 43]), .start 1 (.subscribe 1 [97, 47, 43]), .next 1 0, .next 0 0, .gone 2,
   .start 2 (.publish [97, 47, 120] [7] none), .start 3 (.publish [97, 47, 120] [8] none), .next 2 0, .next 2 0, .next 3 0, .next 2 0,
   .next 2 0, .next 3 0, .next 3 0, .next 2 0, .next 3 0]

example :
    let a : List Ev := [.connect 1, .connect 2, .start 0 (.subscribe 2 [97, 47, 43])]
    let b : List Ev := [.next 1 0, .next 0 0, .gone 2, .start 2 (.publish [97, 47, 120] [7] none)]
    let e : List Ev := [.next 2 0, .next 2 0, .next 3 0, .next 2 0, .next 2 0, .next 3 0, .next 3 0, .next 2 0, .next 3 0]
    exR = a ++ Ev.start 1 (.subscribe 1 [97, 47, 43]) :: (b ++ Ev.start 3 (.publish [97, 47, 120] [8] none) :: e) ∧
    (starts exR).Nodup ∧ (run {} (a ++ Ev.start 1 (.subscribe 1 [97, 47, 43]) :: b)).done 1 ∧ (run {} exR).done 3 ∧ (run {} exR).done 2 ∧
    byTo 3 1 (outs {} exR) = [⟨3, 1, ⟨[97, 47, 120], [8]⟩⟩] ∧ byTo 3 2 (outs {} exR) = [] := by decide

/-- C73: whatever else is going on, one publish puts at most one copy into the channel of each client, and nothing but its own
message. -/
theorem C73_once (a b : List Ev) (pid : Nat) (t : Str) (d : Bytes) (keep : Option (Option Retained))
    (hn : (starts (a ++ Ev.start pid (.publish t d keep) :: b)).Nodup) (c : Cid) :
    byTo pid c (outs {} (a ++ Ev.start pid (.publish t d keep) :: b)) = [] ∨
    byTo pid c (outs {} (a ++ Ev.start pid (.publish t d keep) :: b)) = [⟨pid, c, ⟨t, d⟩⟩] :=
  (phase hn c).le

/-- C73: a client that is not subscribed to a pattern matching the topic, and has not begun to subscribe to one, gets nothing
from a publish: an answered `unsubscribe` takes effect for every publish that begins afterwards. -/
theorem C73_not (a e : List Ev) (c : Cid) (t : Str) (d : Bytes) (keep : Option (Option Retained)) (pid : Nat)
    (hn : (starts (a ++ Ev.start pid (.publish t d keep) :: e)).Nodup)
    (hp : Proper (a ++ Ev.start pid (.publish t d keep) :: e))
    (h : ∀ p, hashLast (split p) = true → Matches (split p) (split t) → Absent c p a ∧ ∀ id, Ev.start id (.subscribe c p) ∉ e) :
    byTo pid c (outs {} (a ++ Ev.start pid (.publish t d keep) :: e)) = [] := by
  have hout : ∀ e', (∃ e'', e = e' ++ e'') → c ∉ matchSubs (split t) (run {} (a ++ Ev.start pid (.publish t d keep) :: e')).tree := by
    rintro e' ⟨e'', rfl⟩ hc
    have hcut : a ++ Ev.start pid (.publish t d keep) :: (e' ++ e'') = (a ++ Ev.start pid (.publish t d keep) :: e') ++ e'' := by simp
    rw [hcut] at hp hn
    have hp' : Proper (a ++ Ev.start pid (.publish t d keep) :: e') :=
      ⟨fun i d q h => hp.1 i d q (List.mem_append_left _ h), fun i d q h => hp.2 i d q (List.mem_append_left _ h)⟩
    obtain ⟨ed, h1, h2⟩ := mem_matchSubs.mp hc
    obtain ⟨i, p, h3, rfl⟩ := tree_origin h1
    have hpp := hp'.1 i c p h3
    have hm := (ematch_edges hpp).mp h2
    obtain ⟨habs, hno⟩ := h p hpp hm
    rw [starts_append, List.nodup_append] at hn
    have hn1 := hn.1
    rw [starts_append, List.nodup_append] at hn1
    have hpa : Proper a := ⟨fun i d q h => hp'.1 i d q (List.mem_append_left _ h), fun i d q h => hp'.2 i d q (List.mem_append_left _ h)⟩
    have h0 := absent hn1.1 hpa hpp habs
    suffices hh : ∀ y, (∃ z, e' = y ++ z) → (run {} (a ++ Ev.start pid (.publish t d keep) :: y)).free (.subscribe c p) ∧
        c ∉ subsAt (edges (split p)) (run {} (a ++ Ev.start pid (.publish t d keep) :: y)).tree from (hh e' ⟨[], by simp⟩).2 h1
    intro y
    induction y using Verif.Sdk.snoc_ind with
    | h0 =>
      intro _
      rw [run_snoc]
      have hs := nobody_step (e := .start pid (.publish t d keep)) (fun i q hi => hpa.1 i c q (sub_task hi)) hpp (by simp) h0.1
      exact ⟨hs.1, hs.2 h0.2⟩
    | h1 y x ih =>
      rintro ⟨z, rfl⟩
      have jh := ih ⟨x :: z, by simp⟩
      have hcut2 : a ++ Ev.start pid (.publish t d keep) :: (y ++ [x]) = (a ++ Ev.start pid (.publish t d keep) :: y) ++ [x] := by simp
      rw [hcut2, run_snoc]
      have hs := nobody_step (e := x) (fun i q hi => hp'.1 i c q (by
        have := sub_task hi
        simp only [List.mem_append, List.mem_cons] at this ⊢
        rcases this with h | h | h
        · exact .inl h
        · exact .inr (.inl h)
        · exact .inr (.inr (.inl (.inl h))))) hpp (fun i hi => hno i (by simp [hi])) jh.1
      exact ⟨hs.1, hs.2 jh.2⟩
  -- the client is never among those the publish has to serve
  have hin : ∀ e', (∃ e'', e = e' ++ e'') → (∀ msg todo zs,
      mget (run {} (a ++ Ev.start pid (.publish t d keep) :: e')).tasks pid = some (.send msg todo zs) → c ∉ todo) ∧
      byTo pid c (outs {} (a ++ Ev.start pid (.publish t d keep) :: e')) = [] := by
    intro e'
    induction e' using Verif.Sdk.snoc_ind with
    | h0 =>
      intro _
      refine ⟨?_, ?_⟩
      · intro msg todo zs ht
        rw [run_snoc] at ht
        simp only [step, begin_] at ht
        rw [mget_mset_same] at ht; cases ht
      · rw [starts_append, List.nodup_append] at hn
        rw [outs_snoc, byTo_append]
        simp only [step]
        rw [show byTo pid c [] = [] from rfl, List.append_nil, byTo_nil]
        rintro x hx ⟨rfl, -⟩
        exact hn.2.2 x.by_ (sent_started hx) x.by_ (by simp [starts]) rfl
    | h1 e' x ih =>
      rintro ⟨e'', rfl⟩
      have hpre : ∃ e''', e' ++ [x] ++ e'' = e' ++ e''' := ⟨x :: e'', by simp⟩
      have ho := hout e' hpre
      have jh := ih hpre
      have hcut : a ++ Ev.start pid (.publish t d keep) :: (e' ++ [x] ++ e'') = (a ++ Ev.start pid (.publish t d keep) :: e') ++ (x :: e'') := by simp
      have hcut2 : a ++ Ev.start pid (.publish t d keep) :: (e' ++ [x]) = (a ++ Ev.start pid (.publish t d keep) :: e') ++ [x] := by simp
      rw [hcut] at hn
      have hn' : (starts (a ++ Ev.start pid (.publish t d keep) :: e')).Nodup := by
        rw [starts_append, List.nodup_append] at hn; exact hn.1
      have hph := phase hn' c
      rw [hcut2, run_snoc, outs_snoc, byTo_append, jh.2]
      refine ⟨?_, ?_⟩
      · intro msg todo zs ht
        rcases task_from ht with ht | ⟨r, _, hr⟩ | ⟨now, t0, rfl, ht0, hr⟩
        · exact jh.1 _ _ _ ht
        · exact hr.elim
        · rw [ht0] at hph
          cases t0 with
          | route topic data =>
            obtain ⟨_, rfl, _⟩ := hr
            have heq : (⟨topic, data⟩ : Msg) = ⟨t, d⟩ := hph.1
            cases heq
            exact fun hc => ho (mem_dedup.mp hc).1
          | send msg0 todo0 zs0 =>
            cases todo0 with
            | nil => exact hr.elim
            | cons c' todo0 =>
              obtain ⟨_, rfl, _⟩ := hr
              exact fun hc => jh.1 _ _ _ ht0 (List.mem_cons_of_mem _ hc)
          | subscribe _ _ => exact hr.elim
          | unsubscribe _ _ => exact hr.elim
          | forget _ _ _ => exact hr.elim
          | disconnect _ => exact hr.elim
      · rw [List.nil_append, byTo_nil]
        rintro y hy ⟨rfl, rfl⟩
        obtain ⟨now, rfl, ⟨q, hq⟩ | ⟨todo, zs, hq, _⟩⟩ := sent_from hy
        · rw [hq] at hph; exact hph.elim
        · exact jh.1 _ _ _ hq (List.mem_cons_self ..)
  exact (hin e ⟨[], by simp⟩).2

/-- Client 1 has unsubscribed; its other subscription does not match. -/
def exN : List Ev :=
  [.connect 1, .start 0 (.subscribe 1 [97, 47, 43]), .start 1 (.subscribe 1 [98]), .next 1 0, .next 0 0, .start 2 (.unsubscribe 1 [97, 47, 43]),
   .next 2 0]

example : (starts (exN ++ Ev.start 3 (.publish [97, 47, 120] [8] none) :: [.next 3 0, .next 3 0])).Nodup ∧
    outs {} (exN ++ Ev.start 3 (.publish [97, 47, 120] [8] none) :: [.next 3 0, .next 3 0]) = [] ∧
    (run {} (exN ++ Ev.start 3 (.publish [97, 47, 120] [8] none) :: [.next 3 0, .next 3 0])).done 3 := by decide

example : Absent 1 [97, 47, 43] exN :=
  .inr ⟨[.connect 1, .start 0 (.subscribe 1 [97, 47, 43]), .start 1 (.subscribe 1 [98]), .next 1 0, .next 0 0], 2, [.next 2 0], rfl,
    (fun id h => by
      have : (run {} [.connect 1, .start 0 (.subscribe 1 [97, 47, 43]), .start 1 (.subscribe 1 [98]), .next 1 0, .next 0 0]).tasks = [] := by decide
      rw [this] at h; cases h),
    by simp, by decide⟩

/-- C73: after a client has been disconnected, and until it connects again, nothing is put into its channel except by
subscriptions it had begun before. -/
theorem C73_gone (a b : List Ev) (c : Cid) (id : Nat) (hb : Ev.connect c ∉ b) (x : Sent)
    (hx : x ∈ outs (run {} (a ++ [.start id (.disconnect c)])) b) (hc : x.to = c) :
    ∃ p, Ev.start x.by_ (.subscribe c p) ∈ a := by
  have hnone : ∀ y, (∃ z, b = y ++ z) → mget (run {} (a ++ Ev.start id (.disconnect c) :: y)).clients c = none ∧
      ∀ i p, mget (run {} (a ++ Ev.start id (.disconnect c) :: y)).tasks i = some (.subscribe c p) → Ev.start i (.subscribe c p) ∈ a := by
    intro y
    induction y using Verif.Sdk.snoc_ind with
    | h0 =>
      intro _
      rw [run_snoc]
      refine ⟨?_, ?_⟩
      · simp only [step, begin_, beginDrop]
        split
        · exact mget_mdel_same _ _
        · next h => exact h
      · intro i p h
        rcases task_from h with h | ⟨r, hr, hr'⟩ | ⟨_, _, hr, _⟩
        · exact sub_task h
        · have hr' : r = .subscribe c p := hr'
          subst hr'; cases hr
        · cases hr
    | h1 y e ih =>
      rintro ⟨z, rfl⟩
      have jh := ih ⟨e :: z, by simp⟩
      have hcut : a ++ Ev.start id (.disconnect c) :: (y ++ [e]) = (a ++ Ev.start id (.disconnect c) :: y) ++ [e] := by simp
      rw [hcut, run_snoc]
      refine ⟨step_none jh.1 (fun h => hb (by simp [h])), ?_⟩
      intro i p h
      rcases task_from h with h | ⟨r, rfl, hr'⟩ | ⟨_, t0, _, _, hr⟩
      · exact jh.2 i p h
      · have hr' : r = .subscribe c p := hr'
        subst hr'
        simp only [step, begin_, jh.1] at h
        exact jh.2 i p h
      · rcases t0 with _ | _ | _ | ⟨_, _ | _, _⟩ | _ | _ <;> exact hr.elim
  suffices h : ∀ y z, b = y ++ z → x ∈ outs (run {} (a ++ Ev.start id (.disconnect c) :: y)) z → ∃ p, Ev.start x.by_ (.subscribe c p) ∈ a from
    h [] b rfl hx
  intro y z
  induction z generalizing y with
  | nil => intro _ h; cases h
  | cons e z ih =>
    intro h1 h2
    rcases List.mem_append.mp h2 with h2 | h2
    · have hn := hnone y ⟨e :: z, h1⟩
      obtain ⟨now, _, ⟨p, hp⟩ | ⟨_, _, _, h3, _⟩⟩ := sent_from h2
      · rw [hc] at hp; exact ⟨p, hn.2 _ _ hp⟩
      · rw [hc, hn.1] at h3; cases h3
    · refine ih (y ++ [e]) (by rw [h1]; simp) ?_
      rw [show a ++ Ev.start id (.disconnect c) :: (y ++ [e]) = (a ++ Ev.start id (.disconnect c) :: y) ++ [e] by simp, run_snoc]
      exact h2

example : outs (run {} ([.connect 1, .start 0 (.publish [97] [5] (some (some ⟨[5], none, none⟩))), .start 1 (.subscribe 1 [97])] ++ [.start 2 (.disconnect 1)]))
    [.next 2 0, .next 1 0, .next 0 0] = [⟨1, 1, ⟨[97], [5]⟩⟩] := by decide

end Verif.PubSub.Race
