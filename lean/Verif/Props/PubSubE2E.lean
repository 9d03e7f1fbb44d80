import Verif.Proofs.PubSubE2E2

/-!
# C92: from publish to callback

One client of the library, its connection – lost and made again any number of times – and the server with all its other
clients, publishers and background tasks.  Requests of the client are handled and answered in any order; messages to the
client can overtake answers and be overtaken by them.
-/

namespace Verif.PubSub.E2E

open Verif.PubSub Verif.PubSub.Sdk

/-- The history, from a client that has just connected as `c0`. -/
abbrev after (dflt : Nat) (db : List Row) (t0 u0 : Nat) (c0 : Cid) (es : List NEv) : Net :=
  (Net.init dflt db t0 u0 c0).run dflt es

theorem listening {dflt : Nat} {db : List Row} {t0 u0 : Nat} {c0 : Cid} {a : List NEv} {p : Str} {c : Cid}
    (hfresh : (connects (after dflt db t0 u0 c0 a).done).Nodup)
    (hconn : (after dflt db t0 u0 c0 a).conn = some c) (hend : notEnded c (after dflt db t0 u0 c0 a).done)
    (hcb : p ∈ (after dflt db t0 u0 c0 a).link.client.topics) (hidle : p ∉ (after dflt db t0 u0 c0 a).link.busy)
    (hs : subscribed c p (after dflt db t0 u0 c0 a).done = true) : Listening dflt db t0 u0 c p (after dflt db t0 u0 c0 a) := by
  have hreg := (Reg.init dflt db t0 u0 c0).run (down_init dflt db t0 u0 c0) a hfresh
  refine ⟨(Traced.init dflt db t0 u0 c0).run a, good_run dflt (good_init dflt db t0 u0 c0) a, hconn, ?_, hcb, hidle, ?_, hs⟩
  · rw [hreg.up, hconn]; rfl
  · exact (hreg.sub c hconn hend).1

/-- C92: after `subscribe` has been answered, and as long as the connection lasts and `unsubscribe` is not called, the callback
is called exactly once, in the order of publishing, for each message published on a matching topic – the last of them may
still be on their way – whatever other subscriptions come and go.

`subscribed`: the server has the subscription (see `C92_subscribed` for when that is so).  `partial`: this is about the messages
that are sent because they are published; for the same messages sent again as retained values see `C92_violated`. -/
theorem C92_delivered_partial (dflt : Nat) (db : List Row) (t0 u0 : Nat) (c0 : Cid) (a b : List NEv) (p : Str) (c : Cid)
    (hfresh : (connects (after dflt db t0 u0 c0 (a ++ b)).done).Nodup)
    (hproper : ∀ o ∈ (after dflt db t0 u0 c0 (a ++ b)).done, o.proper = true)
    (hconn : (after dflt db t0 u0 c0 a).conn = some c)
    (hcb : p ∈ (after dflt db t0 u0 c0 a).link.client.topics) (hidle : p ∉ (after dflt db t0 u0 c0 a).link.busy)
    (hs : subscribed c p (after dflt db t0 u0 c0 a).done = true)
    (hlost : NEv.lost ∉ b) (hend : notEnded c (after dflt db t0 u0 c0 (a ++ b)).done) (hun : NEv.unsubscribe p ∉ b) :
    ∃ new, (after dflt db t0 u0 c0 (a ++ b)).calls = (after dflt db t0 u0 c0 a).calls ++ new ∧
      fresh (callsOf p new) ++ matching p (fresh (after dflt db t0 u0 c0 (a ++ b)).pushes)
        = matching p (fresh (after dflt db t0 u0 c0 a).pushes) ++ matching p (published dflt b) := by
  have hrun : after dflt db t0 u0 c0 (a ++ b) = (after dflt db t0 u0 c0 a).run dflt b := Net.run_append ..
  rw [hrun] at hfresh hproper hend ⊢
  obtain ⟨l, hd⟩ := run_done dflt (after dflt db t0 u0 c0 a) b
  have hL : Listening dflt db t0 u0 c p (after dflt db t0 u0 c0 a) := by
    refine listening ?_ hconn ?_ hcb hidle hs
    · rw [hd, connects_append] at hfresh; exact (List.nodup_append.mp hfresh).1
    · rw [hd] at hend; exact not_ended_prefix hend
  exact hL.run b hlost hun hfresh hproper hend

/-- When the server has the subscription: the callback is there, its requests are answered, and so far no request has timed
out and `unsubscribe` was not called for a topic while an earlier request for the same topic was not answered. -/
theorem C92_subscribed (dflt : Nat) (db : List Row) (t0 u0 : Nat) (c0 : Cid) (a : List NEv) (p : Str) (c : Cid)
    (hfresh : (connects (after dflt db t0 u0 c0 a).done).Nodup)
    (hconn : (after dflt db t0 u0 c0 a).conn = some c) (hend : notEnded c (after dflt db t0 u0 c0 a).done)
    (hcalm : Calm {} (linkEvents a))
    (hcb : p ∈ (after dflt db t0 u0 c0 a).link.client.topics) (hidle : p ∉ (after dflt db t0 u0 c0 a).link.busy) :
    subscribed c p (after dflt db t0 u0 c0 a).done = true := by
  have hreg := (Reg.init dflt db t0 u0 c0).run (down_init dflt db t0 u0 c0) a hfresh
  have hag : Sdk.Agree (after dflt db t0 u0 c0 a).link := by
    rw [run_link]
    exact Sdk.Agree.init.run hcalm
  refine ((hreg.sub c hconn hend).2 p).mpr ((hag.idle ?_ p hidle).mp hcb)
  rw [hreg.up, hconn]; rfl

/-- C92: a callback is called only with messages that were published, on a topic that matches its pattern: with what was just
published, or with what is retained for the topic (announced without the separators the topic begins with, C18). -/
theorem C92_only (dflt : Nat) (db : List Row) (hdb : (db.map (·.1)).Nodup) (t0 u0 : Nat) (c0 : Cid) (es : List NEv)
    (hv : Valid t0 (after dflt db t0 u0 c0 es).done) (p : Str) (x : Push) (hx : (p, x) ∈ (after dflt db t0 u0 c0 es).calls) :
    Origin db (after dflt db t0 u0 c0 es).done x ∧ (hashLast (split p) = true → Matches (split p) (split x.msg.topic)) := by
  obtain ⟨h1, h2⟩ := (Sourced.run hdb es hv).calls _ hx
  exact ⟨h1, fun hp => (accepts_matches hp).mp h2⟩

theorem not_called {dflt : Nat} {n : Net} (hg : Good n.link.client) {p : Str} (ht : p ∉ n.link.client.topics) (es : List NEv)
    (hs : NEv.subscribe p ∉ es) : callsOf p (n.run dflt es).calls = callsOf p n.calls := by
  induction es generalizing n with
  | nil => rfl
  | cons e es ih =>
    have hg' : Good (n.step dflt e).link.client := by
      rw [step_link]
      cases e.link? with
      | none => exact hg
      | some le => exact hg.link le
    have ht' : p ∉ (n.step dflt e).link.client.topics := by
      rw [step_link]
      cases hle : e.link? with
      | none => exact ht
      | some le =>
        have hfail : ∀ (r : Sdk.Req) (c : Client), p ∉ c.topics → p ∉ (Sdk.failed c r).topics := by
          intro r c hc
          unfold Sdk.failed
          split
          · exact fun h => hc (mem_topics_unsubscribe.mp h).1
          · exact hc
        cases le with
        | subscribe t =>
          have hne : p ≠ t := by
            rintro rfl
            cases e <;> simp [NEv.link?] at hle
            subst hle
            exact hs (by simp)
          simp only [Link.step]
          split
          · exact ht
          · split
            · exact fun h => (mem_topics_subscribe.mp h).elim hne ht
            · exact ht
        | unsubscribe t =>
          simp only [Link.step]
          split <;> exact ht
        | serve i =>
          simp only [Link.step]
          split <;> exact ht
        | answer i =>
          simp only [Link.step]
          split
          · exact ht
          · split
            · exact ht
            · split
              · exact fun h => ht (mem_topics_unsubscribe.mp h).1
              · exact ht
        | timeout id =>
          simp only [Link.step]
          split
          · exact hfail _ _ ht
          · exact ht
        | lost =>
          simp only [Link.step]
          generalize List.filter _ _ = rs
          have : ∀ (rs : List Sdk.Req) (c : Client), p ∉ c.topics → p ∉ (rs.foldl Sdk.failed c).topics := by
            intro rs
            induction rs with
            | nil => exact fun c hc => hc
            | cons r rs ih => exact fun c hc => ih _ (hfail r c hc)
          exact this rs _ ht
        | reconnect =>
          simp only [Link.step]
          split <;> exact ht
    have hc : callsOf p (n.step dflt e).calls = callsOf p n.calls := by
      cases e with
      | arrive =>
        simp only [Net.step]
        split
        · rfl
        · next x rest hx =>
          simp only
          rw [callsOf_append, callsOf_map (hg.dispatch_nodup _), if_neg (fun h => ht (hg.mem_dispatch.mp h).1), List.append_nil]
      | serve i order now => simp only [Net.step]; split <;> rfl
      | reconnect c => simp only [Net.step]; split <;> rfl
      | other op => simp only [Net.step]; split <;> rfl
      | _ => rfl
    exact (ih hg' ht' (fun h => hs (List.mem_cons_of_mem _ h))).trans hc

/-- C92: once `unsubscribe` has been answered, the callback is not called any more, until `subscribe` is called for this pattern
again – whatever is still on its way. -/
theorem C92_stopped (dflt : Nat) (db : List Row) (t0 u0 : Nat) (c0 : Cid) (a b : List NEv) (i : Nat) (r : Sdk.Req)
    (hr : (after dflt db t0 u0 c0 a).link.toClient[i]? = some r) (hk : r.kind = .unsub)
    (hlate : r.id ∉ (after dflt db t0 u0 c0 a).link.late) (hs : NEv.subscribe r.topic ∉ b) :
    callsOf r.topic (after dflt db t0 u0 c0 (a ++ .answer i :: b)).calls = callsOf r.topic (after dflt db t0 u0 c0 a).calls := by
  have hrun : after dflt db t0 u0 c0 (a ++ .answer i :: b) = ((after dflt db t0 u0 c0 a).step dflt (.answer i)).run dflt b :=
    Net.run_append ..
  rw [hrun]
  have hg := (good_run dflt (good_init dflt db t0 u0 c0) a)
  refine not_called (n := (after dflt db t0 u0 c0 a).step dflt (.answer i)) (hg.link (.answer i)) ?_ b hs
  show r.topic ∉ ((after dflt db t0 u0 c0 a).link.step (.answer i)).client.topics
  simp only [Link.step, hr, hlate, if_false, hk]
  exact fun h => (mem_topics_unsubscribe.mp h).2 rfl

/-- C92: when the server handles the subscription, the callback gets the value retained for each matching topic: it has been
called with it, or the value is on its way, as long as the connection lasts, nothing times out and `unsubscribe` is not called.
`partial`: topics that begin with a separator are announced wrongly (C18). -/
theorem C92_greeted_partial (dflt : Nat) (db : List Row) (hdb : (db.map (·.1)).Nodup) (t0 u0 : Nat) (c0 : Cid) (a b : List NEv)
    (i : Nat) (order : List Msg) (now : Nat) (c : Cid) (r : Sdk.Req)
    (hv : Valid t0 (after dflt db t0 u0 c0 (a ++ [.serve i order now])).done)
    (hpl : PlainTopics db (after dflt db t0 u0 c0 a).done) (hpp : hashLast (split r.topic) = true)
    (hconn : (after dflt db t0 u0 c0 a).conn = some c) (hend : notEnded c (after dflt db t0 u0 c0 a).done)
    (hcalm : Calm {} (linkEvents a)) (hr : (after dflt db t0 u0 c0 a).link.toServer[i]? = some r) (hk : r.kind ≠ .unsub)
    (hlost : NEv.lost ∉ b) (hun : NEv.unsubscribe r.topic ∉ b) (hto : ∀ id, NEv.timeout id ∉ b)
    (topic : Str) (hm : Matches (split r.topic) (split topic)) (k : Kept)
    (hkept : kept dflt (baseOf db t0 u0) topic (after dflt db t0 u0 c0 a).done = some k) (hlive : k.live now = true) :
    ⟨⟨topic, k.data⟩, true⟩ ∈ (after dflt db t0 u0 c0 (a ++ .serve i order now :: b)).pushes ∨
    (r.topic, ⟨⟨topic, k.data⟩, true⟩) ∈ (after dflt db t0 u0 c0 (a ++ .serve i order now :: b)).calls := by
  have hrun : after dflt db t0 u0 c0 (a ++ .serve i order now :: b) = ((after dflt db t0 u0 c0 a).step dflt (.serve i order now)).run dflt b :=
    Net.run_append ..
  have hrun1 : after dflt db t0 u0 c0 (a ++ [.serve i order now]) = (after dflt db t0 u0 c0 a).step dflt (.serve i order now) :=
    Net.run_snoc ..
  have hg := good_run dflt (good_init dflt db t0 u0 c0) a
  have ht := (Traced.init dflt db t0 u0 c0).run a
  have hag : Sdk.Agree (after dflt db t0 u0 c0 a).link := by
    rw [run_link]
    exact Sdk.Agree.init.run hcalm
  rw [hrun1] at hv
  rw [hrun]
  have hstep : (after dflt db t0 u0 c0 a).step dflt (.serve i order now)
      = ({ after dflt db t0 u0 c0 a with link := (after dflt db t0 u0 c0 a).link.step (.serve i) } : Net).exec dflt (.subscribe c r.topic order now) := by
    simp only [Net.step, hconn, hr]
    congr 1
    unfold opOf
    split
    · next h => exact absurd h hk
    · rfl
  have hv' : Valid t0 ((after dflt db t0 u0 c0 a).done ++ [.subscribe c r.topic order now]) := by
    rw [hstep] at hv; exact hv
  have hreg := (Reg.init dflt db t0 u0 c0).run (down_init dflt db t0 u0 c0) a hv'.init.1.fresh
  have hsent := ((C18_retained_partial dflt db hdb t0 u0 (after dflt db t0 u0 c0 a).done c r.topic order now hv' hpl hpp
    (hreg.sub c hconn hend).1).2 c ⟨topic, k.data⟩).mpr ⟨rfl, hm, k, hkept, hlive, rfl⟩
  have hmem : r ∈ (after dflt db t0 u0 c0 a).link.toServer := List.mem_of_getElem? hr
  have hlink : ((after dflt db t0 u0 c0 a).step dflt (.serve i order now)).link = (after dflt db t0 u0 c0 a).link.step (.serve i) := by
    rw [step_link]; rfl
  have hkinds : ∀ q ∈ (after dflt db t0 u0 c0 a).link.toServer ++ (after dflt db t0 u0 c0 a).link.toClient, q.topic = r.topic → q.kind ≠ .unsub := by
    intro q hq hqr hqk
    have hperm := perm_eraseIdx hr
    have hnd : ((r :: ((after dflt db t0 u0 c0 a).link.toServer.eraseIdx i ++ (after dflt db t0 u0 c0 a).link.toClient)).map (·.topic)).Nodup :=
      (List.Perm.map _ (List.Perm.append_right _ hperm)).nodup_iff.mp hag.once
    have hq' := (List.Perm.append_right (after dflt db t0 u0 c0 a).link.toClient hperm).mem_iff.mp hq
    rcases List.mem_cons.mp hq' with rfl | hq'
    · exact hk hqk
    · exact (List.nodup_cons.mp hnd).1 (List.mem_map.mpr ⟨q, hq', hqr⟩)
  obtain ⟨hs1, hs2⟩ := callback_stays (hag.asked r hmem) hkinds (e := .serve i) (fun h => nomatch h) (fun h => nomatch h) (fun _ h => nomatch h)
  refine run_delivers (p := r.topic) (n := (after dflt db t0 u0 c0 a).step dflt (.serve i order now)) ?_ ?_ ?_ ((accepts_matches hpp).mpr hm) (.inl ?_)
    b hlost hun hto
  · rw [hlink]; exact hg.link _
  · rw [hlink]; exact hs1
  · rw [hlink]; exact hs2
  · rw [hstep]
    refine List.mem_append_right _ (List.mem_map.mpr ⟨⟨topic, k.data⟩, ?_, rfl⟩)
    refine List.mem_filterMap.mpr ⟨(c, ⟨topic, k.data⟩), ?_, ?_⟩
    · have : (after dflt db t0 u0 c0 a).server = _ := ht
      show (c, _) ∈ (PubSub.step dflt (after dflt db t0 u0 c0 a).server _).2.sent
      rw [this]
      exact hsent
    · simp [hconn]

/-- `a/x` has a retained value; the client subscribes to `a/#` and gets it. -/
def demoA : List NEv :=
  [.other (.publish [97, 47, 120] [1] true none 0 0), .subscribe [97, 47, 35], .serve 0 [] 1, .answer 0, .arrive]

/-- Publishes on `a/y`, `b` and `a/x`, while the client subscribes to `+/x` as well, which greets it with the retained value. -/
def demoB : List NEv :=
  [.other (.publish [97, 47, 121] [2] false none 2 0), .subscribe [43, 47, 120], .other (.connect 2), .other (.subscribe 2 [98] [] 2),
   .other (.publish [98] [3] false none 2 0), .serve 0 [] 3, .arrive, .other (.publish [97, 47, 120] [4] false none 4 0), .arrive, .answer 0, .arrive,
   .other (.publish [97, 47, 122] [5] true (some (2 ^ 64)) 4 0), .other (.publish [97, 47, 122] [6] false none 4 0)]

example :
    (connects (after 60 [] 0 0 1 (demoA ++ demoB)).done).Nodup ∧ (∀ o ∈ (after 60 [] 0 0 1 (demoA ++ demoB)).done, o.proper = true) ∧
    (after 60 [] 0 0 1 demoA).conn = some 1 ∧ [97, 47, 35] ∈ (after 60 [] 0 0 1 demoA).link.client.topics ∧
    [97, 47, 35] ∉ (after 60 [] 0 0 1 demoA).link.busy ∧ subscribed 1 [97, 47, 35] (after 60 [] 0 0 1 demoA).done = true ∧
    NEv.lost ∉ demoB ∧ notEnded 1 (after 60 [] 0 0 1 (demoA ++ demoB)).done ∧ NEv.unsubscribe [97, 47, 35] ∉ demoB ∧
    Calm {} (linkEvents (demoA ++ demoB)) ∧
    callsOf [97, 47, 35] (after 60 [] 0 0 1 (demoA ++ demoB)).calls
      = [⟨⟨[97, 47, 120], [1]⟩, true⟩, ⟨⟨[97, 47, 121], [2]⟩, false⟩, ⟨⟨[97, 47, 120], [1]⟩, true⟩, ⟨⟨[97, 47, 120], [4]⟩, false⟩] ∧
    callsOf [43, 47, 120] (after 60 [] 0 0 1 (demoA ++ demoB)).calls = [⟨⟨[97, 47, 120], [1]⟩, true⟩, ⟨⟨[97, 47, 120], [4]⟩, false⟩] ∧
    (after 60 [] 0 0 1 (demoA ++ demoB)).pushes = [⟨⟨[97, 47, 122], [6]⟩, false⟩] ∧
    published 60 demoB = [⟨[97, 47, 121], [2]⟩, ⟨[98], [3]⟩, ⟨[97, 47, 120], [4]⟩, ⟨[97, 47, 122], [6]⟩] := by decide

/-- For `C92_only`. -/
example : Valid 0 (after 60 [] 0 0 1 (demoA ++ demoB)).done ∧
    ([43, 47, 120], (⟨⟨[97, 47, 120], [4]⟩, false⟩ : Push)) ∈ (after 60 [] 0 0 1 (demoA ++ demoB)).calls :=
  ⟨⟨by decide, by decide⟩, by decide⟩

/-- For `C92_greeted_partial`: the subscription to `+/x` in `demoB` is about to be handled. -/
example :
    let a := demoA ++ demoB.take 5
    Valid 0 (after 60 [] 0 0 1 (a ++ [.serve 0 [] 3])).done ∧ (after 60 [] 0 0 1 a).conn = some 1 ∧ notEnded 1 (after 60 [] 0 0 1 a).done ∧
    Calm {} (linkEvents a) ∧ (after 60 [] 0 0 1 a).link.toServer[0]? = some { id := 1, kind := .sub, topic := [43, 47, 120] } ∧
    kept 60 (baseOf [] 0 0) [97, 47, 120] (after 60 [] 0 0 1 a).done = some ⟨[1], some 60000000000, some 60⟩ ∧
    Kept.live ⟨[1], some 60000000000, some 60⟩ 3 = true ∧ Matches (split [43, 47, 120]) (split [97, 47, 120]) :=
  ⟨⟨by decide, by decide⟩, by decide, by decide, by decide, by decide, by decide, by decide, .plus (.level (by decide) (by decide) .done)⟩

/-- For `C92_stopped`: the answer to `unsubscribe` arrives while a message is on its way; it does not reach the callback. -/
example :
    let a := demoA ++ [.unsubscribe [97, 47, 35], .other (.publish [97, 47, 120] [4] false none 4 0), .serve 0 [] 5]
    (after 60 [] 0 0 1 a).link.toClient[0]? = some { id := 1, kind := .unsub, topic := [97, 47, 35] } ∧
    (after 60 [] 0 0 1 a).link.late = [] ∧ (after 60 [] 0 0 1 a).pushes = [⟨⟨[97, 47, 120], [4]⟩, false⟩] ∧
    (after 60 [] 0 0 1 (a ++ .answer 0 :: [.arrive])).calls = (after 60 [] 0 0 1 a).calls := by decide

/-- C92 is violated for retained messages: one message is published, once, and the callback for `a/#` is called with it twice,
on one connection, because the same client subscribed to `a/x` as well. -/
theorem C92_violated : ∃ es p m, Calm {} (linkEvents es) ∧ NEv.lost ∉ es ∧ published 60 es = [m] ∧
    (∀ o ∈ (after 60 [] 0 0 1 es).done, o.proper = true) ∧ (callsOf p (after 60 [] 0 0 1 es).calls).map (·.msg) = [m, m] :=
  ⟨demoA ++ [.subscribe [97, 47, 120], .serve 0 [] 2, .answer 0, .arrive], [97, 47, 35], ⟨[97, 47, 120], [1]⟩,
    by decide, by decide, by decide, by decide, by decide⟩

end Verif.PubSub.E2E
