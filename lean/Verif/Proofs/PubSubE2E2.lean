import Verif.Proofs.PubSubE2E
import Verif.Proofs.SdkConnection

/-! # Publish to callback: what the server has for the connection, where messages come from -/

namespace Verif.PubSub.E2E

open Verif.PubSub Verif.PubSub.Sdk

theorem subscribedRev_mem {c : Cid} {p : Str} {h : List Op} (hs : subscribedRev c p h = true) : c ∈ connects h := by
  induction h with
  | nil => cases hs
  | cons o h ih =>
    cases o with
    | connect d =>
      simp only [subscribedRev] at hs
      simp only [connects, List.mem_cons]
      exact .inr (ih hs)
    | drop d =>
      simp only [subscribedRev, Bool.and_eq_true] at hs
      exact ih hs.2
    | disconnect d =>
      simp only [subscribedRev, Bool.and_eq_true] at hs
      exact ih hs.2
    | subscribe d q order now =>
      simp only [subscribedRev, Bool.or_eq_true, Bool.and_eq_true] at hs
      rcases hs with hs | hs
      · exact connected_mem hs.2
      · exact ih hs
    | unsubscribe d q =>
      simp only [subscribedRev, Bool.and_eq_true] at hs
      exact ih hs.2
    | publish => exact ih hs
    | cleanup => exact ih hs
    | flush => exact ih hs

/-- What the client's side assumes the server to have is what it has. -/
structure Reg (n : Net) : Prop where
  up : n.link.up = n.conn.isSome
  quiet : n.conn = none → n.pushes = []
  sub : ∀ c, n.conn = some c → notEnded c n.done →
    connected c n.done = true ∧ ∀ p, subscribed c p n.done = true ↔ p ∈ n.link.subs

theorem subs_link {l : Link} {e : LEv} (h : ∀ i, e ≠ .serve i) (hl : e ≠ .lost) : (l.step e).subs = l.subs := by
  cases e with
  | subscribe t =>
    simp only [Link.step]
    split
    · rfl
    · split <;> rfl
  | unsubscribe t =>
    simp only [Link.step]
    split <;> rfl
  | serve i => exact absurd rfl (h i)
  | answer i =>
    simp only [Link.step]
    split
    · rfl
    · split
      · rfl
      · split <;> rfl
  | timeout id =>
    simp only [Link.step]
    split <;> rfl
  | lost => exact absurd rfl hl
  | reconnect =>
    simp only [Link.step]
    split <;> rfl

theorem up_link {l : Link} {e : LEv} (h : e ≠ .lost) (hr : e ≠ .reconnect) : (l.step e).up = l.up := by
  cases e with
  | subscribe t =>
    simp only [Link.step]
    split
    · rfl
    · split <;> rfl
  | unsubscribe t =>
    simp only [Link.step]
    split <;> rfl
  | serve i =>
    simp only [Link.step]
    split <;> rfl
  | answer i =>
    simp only [Link.step]
    split
    · rfl
    · split
      · rfl
      · split <;> rfl
  | timeout id =>
    simp only [Link.step]
    split <;> rfl
  | lost => exact absurd rfl h
  | reconnect => exact absurd rfl hr

/-- When the connection is down nothing is registered on it. -/
structure Down (l : Link) : Prop where
  down : l.up = false → l.toServer = [] ∧ l.toClient = [] ∧ l.subs = []

theorem Down.step {l : Link} (h : Down l) (e : LEv) : Down (l.step e) := by
  cases hup : l.up with
  | false =>
    obtain ⟨h1, h2, h3⟩ := h.down hup
    cases e with
    | subscribe t =>
      simp only [Link.step]
      split
      · exact h
      · rw [hup]; exact h
    | unsubscribe t =>
      simp only [Link.step]
      rw [if_neg (by rw [hup]; simp)]
      exact h
    | serve i => simp only [Link.step, h1, List.getElem?_nil]; exact h
    | answer i => simp only [Link.step, h2, List.getElem?_nil]; exact h
    | timeout id =>
      simp only [Link.step, h1, h2, List.append_nil, List.find?_nil]
      exact h
    | lost => exact ⟨fun _ => ⟨rfl, rfl, rfl⟩⟩
    | reconnect =>
      simp only [Link.step]
      rw [if_neg (by rw [hup]; simp)]
      exact ⟨fun hc => nomatch hc⟩
  | true =>
    by_cases hl : e = .lost
    · subst hl; exact ⟨fun _ => ⟨rfl, rfl, rfl⟩⟩
    · by_cases hr : e = .reconnect
      · subst hr
        simp only [Link.step, hup, if_true]
        exact h
      · exact ⟨fun hc => by rw [up_link hl hr, hup] at hc; cases hc⟩

theorem down_run (dflt : Nat) {n : Net} (h : Down n.link) (es : List NEv) : Down (n.run dflt es).link := by
  induction es generalizing n with
  | nil => exact h
  | cons e es ih =>
    refine ih (n := n.step dflt e) ?_
    rw [step_link]
    cases e.link? with
    | none => exact h
    | some le => exact h.step le

theorem subscribed_snoc_iff {c : Cid} {p : Str} {h : List Op} {op : Op} (h1 : op ≠ .drop c) (h2 : op ≠ .disconnect c)
    (h3 : ∀ q, op ≠ .unsubscribe c q) (h4 : ∀ q o t, op ≠ .subscribe c q o t) :
    subscribed c p (h ++ [op]) = subscribed c p h := by
  unfold subscribed
  rw [List.reverse_append]
  show subscribedRev c p (op :: h.reverse) = _
  cases op with
  | drop d =>
    have : d ≠ c := fun h => h1 (by rw [h])
    simp [subscribedRev, this]
  | disconnect d =>
    have : d ≠ c := fun h => h2 (by rw [h])
    simp [subscribedRev, this]
  | unsubscribe d q =>
    have : d ≠ c := fun h => h3 q (by rw [h])
    simp [subscribedRev, this]
  | subscribe d q o t =>
    have : d ≠ c := fun h => h4 q o t (by rw [h])
    simp [subscribedRev, this]
  | _ => rfl

theorem not_ended_prefix {c : Cid} {h l : List Op} (he : notEnded c (h ++ l)) : notEnded c h :=
  ⟨fun hm => he.1 (List.mem_append_left _ hm), fun hm => he.2 (List.mem_append_left _ hm)⟩

theorem Reg.step {dflt : Nat} {n : Net} (h : Reg n) (hd : Down n.link) (e : NEv) (hn : (connects (n.step dflt e).done).Nodup) :
    Reg (n.step dflt e) := by
  have hlink : ∀ le : LEv, le ≠ .lost → le ≠ .reconnect → (∀ i, le ≠ .serve i) → Reg { n with link := n.link.step le } := by
    intro le h1 h2 h3
    exact ⟨(up_link h1 h2).trans h.up, h.quiet, fun c hc he => by
      show _ ∧ ∀ p, _ ↔ p ∈ (n.link.step le).subs
      rw [subs_link h3 h1]; exact h.sub c hc he⟩
  cases e with
  | subscribe t => exact hlink _ (fun h => nomatch h) (fun h => nomatch h) (fun _ h => nomatch h)
  | unsubscribe t => exact hlink _ (fun h => nomatch h) (fun h => nomatch h) (fun _ h => nomatch h)
  | answer i => exact hlink _ (fun h => nomatch h) (fun h => nomatch h) (fun _ h => nomatch h)
  | timeout i => exact hlink _ (fun h => nomatch h) (fun h => nomatch h) (fun _ h => nomatch h)
  | lost => exact ⟨rfl, fun _ => rfl, fun c hc => nomatch hc⟩
  | reconnect c =>
    cases hup : n.link.up with
    | true =>
      have : n.step dflt (.reconnect c) = n := by simp only [Net.step, hup, if_true]
      rw [this]; exact h
    | false =>
      have hst : n.step dflt (.reconnect c) = ({ n with link := n.link.step .reconnect, conn := some c } : Net).exec dflt (.connect c) := by
        simp only [Net.step, hup, Bool.false_eq_true, if_false]
      rw [hst] at hn ⊢
      have hdone : (({ n with link := n.link.step .reconnect, conn := some c } : Net).exec dflt (.connect c)).done = n.done ++ [.connect c] := rfl
      rw [hdone, connects_append] at hn
      have hfresh : c ∉ connects n.done := by
        intro hc
        exact (List.nodup_append.mp hn).2.2 c hc c (by simp [connects]) rfl
      refine ⟨?_, (fun hc => nomatch hc), ?_⟩
      · show (n.link.step .reconnect).up = true
        simp [Link.step, hup]
      · intro d hcd he
        injection hcd with hcd
        subst hcd
        rw [hdone]
        constructor
        · unfold connected
          rw [List.reverse_append]
          simp [connectedRev]
        · intro p
          rw [subscribed_snoc_iff (op := .connect c) (fun h => nomatch h) (fun h => nomatch h) (fun _ h => nomatch h) (fun _ _ _ h => nomatch h)]
          show _ ↔ p ∈ (n.link.step .reconnect).subs
          rw [subs_link (e := .reconnect) (fun _ h => nomatch h) (fun h => nomatch h), (hd.down hup).2.2]
          constructor
          · intro hs
            refine absurd ?_ hfresh
            have := subscribedRev_mem hs
            rwa [connects_reverse, List.mem_reverse] at this
          · intro hs; cases hs
  | serve i order now =>
    cases hcn : n.conn with
    | none =>
      have hst : n.step dflt (.serve i order now) = { n with link := n.link.step (.serve i) } := by simp only [Net.step, hcn]
      rw [hst]
      refine ⟨(up_link (e := .serve i) (fun h => nomatch h) (fun h => nomatch h)).trans h.up, h.quiet, ?_⟩
      intro c hc
      rw [show ({ n with link := n.link.step (.serve i) } : Net).conn = none from hcn] at hc
      cases hc
    | some c =>
      cases hr : n.link.toServer[i]? with
      | none =>
        have hst : n.step dflt (.serve i order now) = { n with link := n.link.step (.serve i) } := by simp only [Net.step, hcn, hr]
        have hid : n.link.step (.serve i) = n.link := by simp only [Link.step, hr]
        rw [hst, hid]; exact h
      | some r =>
        have hst : n.step dflt (.serve i order now) = ({ n with link := n.link.step (.serve i) } : Net).exec dflt (opOf c r order now) := by
          simp only [Net.step, hcn, hr]
        rw [hst]
        refine ⟨?_, ?_, ?_⟩
        · exact (up_link (e := .serve i) (fun h => nomatch h) (fun h => nomatch h)).trans h.up
        · intro hc
          rw [show (({ n with link := n.link.step (.serve i) } : Net).exec dflt (opOf c r order now)).conn = some c from hcn] at hc
          cases hc
        · intro d hcd he
          rw [show (({ n with link := n.link.step (.serve i) } : Net).exec dflt (opOf c r order now)).conn = some c from hcn] at hcd
          injection hcd with hcd
          subst hcd
          have hdone : (({ n with link := n.link.step (.serve i) } : Net).exec dflt (opOf c r order now)).done = n.done ++ [opOf c r order now] := rfl
          have hsubs : (({ n with link := n.link.step (.serve i) } : Net).exec dflt (opOf c r order now)).link.subs = serveSub n.link.subs r := by
            show (n.link.step (.serve i)).subs = _
            simp only [Link.step, hr]
          rw [hdone] at he ⊢
          rw [hsubs]
          obtain ⟨h1, h2⟩ := h.sub c hcn (not_ended_prefix he)
          have hnd : ∀ d, opOf c r order now ≠ .drop d ∧ opOf c r order now ≠ .disconnect d := by
            intro d
            unfold opOf
            split
            · exact ⟨(fun h => nomatch h), (fun h => nomatch h)⟩
            · exact ⟨(fun h => nomatch h), (fun h => nomatch h)⟩
          refine ⟨connected_snoc h1 (hnd c).1 (hnd c).2, ?_⟩
          intro p
          rw [mem_serveSub, ← h2 p]
          unfold subscribed connected at *
          rw [List.reverse_append]
          show subscribedRev c p (opOf c r order now :: n.done.reverse) = true ↔ _
          unfold opOf
          cases hk : r.kind with
          | unsub =>
            simp only [subscribedRev, Bool.and_eq_true, Bool.not_eq_true', decide_true, Bool.true_and, decide_eq_false_iff_not, if_true]
            exact ⟨fun ⟨a, b⟩ => ⟨b, Ne.symm a⟩, fun ⟨a, b⟩ => ⟨Ne.symm b, a⟩⟩
          | sub =>
            simp only [subscribedRev, Bool.or_eq_true, Bool.and_eq_true, decide_true, decide_eq_true_eq, h1, and_true, reduceCtorEq, if_false, true_and]
            exact ⟨fun a => a.imp Eq.symm id, fun a => a.imp Eq.symm id⟩
          | resub =>
            simp only [subscribedRev, Bool.or_eq_true, Bool.and_eq_true, decide_true, decide_eq_true_eq, h1, and_true, reduceCtorEq, if_false, true_and]
            exact ⟨fun a => a.imp Eq.symm id, fun a => a.imp Eq.symm id⟩
  | other op =>
    by_cases hg : n.conn.isSome ∧ requestOf op = n.conn
    · have : n.step dflt (.other op) = n := by simp only [Net.step, hg, and_self, if_true]
      rw [this]; exact h
    · have hst : n.step dflt (.other op) = n.exec dflt op := by simp only [Net.step, if_neg hg]
      rw [hst]
      refine ⟨h.up, ?_, ?_⟩
      · intro hc
        show n.pushes ++ (toConn n.conn _).map _ = []
        rw [show n.conn = none from hc, toConn_off, h.quiet hc]; rfl
      · intro c hc he
        have hc' : n.conn = some c := hc
        have hdone : (n.exec dflt op).done = n.done ++ [op] := rfl
        rw [hdone] at he ⊢
        obtain ⟨h1, h2⟩ := h.sub c hc (not_ended_prefix he)
        have hrq : requestOf op ≠ some c := fun hx => hg ⟨by rw [hc']; rfl, by rw [hc']; exact hx⟩
        have hd1 : op ≠ .drop c := by rintro rfl; exact he.1 (by simp)
        have hd2 : op ≠ .disconnect c := by rintro rfl; exact he.2 (by simp)
        refine ⟨connected_snoc h1 hd1 hd2, ?_⟩
        intro p
        rw [subscribed_snoc_iff hd1 hd2 (by rintro q rfl; exact hrq rfl) (by rintro q o t rfl; exact hrq rfl)]
        exact h2 p
  | arrive =>
    simp only [Net.step]
    split
    · exact h
    · next x rest hx =>
      refine ⟨h.up, ?_, h.sub⟩
      intro hc
      have := h.quiet hc
      rw [hx] at this; cases this

theorem Reg.init (dflt : Nat) (db : List Row) (t0 u0 : Nat) (c : Cid) : Reg (Net.init dflt db t0 u0 c) := by
  refine ⟨rfl, (fun h => nomatch h), ?_⟩
  intro d hd _
  injection hd with hd
  subst hd
  refine ⟨by simp [Net.init, Net.exec, connected, connectedRev], ?_⟩
  intro p
  constructor
  · intro h
    simp [Net.init, Net.exec, subscribed, subscribedRev] at h
  · intro h; cases h

theorem Reg.run {dflt : Nat} {n : Net} (h : Reg n) (hd : Down n.link) (es : List NEv) (hn : (connects (n.run dflt es).done).Nodup) :
    Reg (n.run dflt es) := by
  induction es using Verif.Sdk.snoc_ind with
  | h0 => exact h
  | h1 es e ih =>
    rw [Net.run_snoc] at hn ⊢
    obtain ⟨l, hl⟩ := step_done dflt (n.run dflt es) e
    have hn1 : (connects (n.run dflt es).done).Nodup := by
      rw [hl, connects_append] at hn; exact (List.nodup_append.mp hn).1
    exact (ih hn1).step (down_run dflt hd es) e hn

theorem down_init (dflt : Nat) (db : List Row) (t0 u0 : Nat) (c : Cid) : Down (Net.init dflt db t0 u0 c).link :=
  ⟨fun h => nomatch h⟩

/-! ### Where messages come from -/

theorem Origin.mono {db : List Row} {h l : List Op} {x : Push} (hx : Origin db h x) : Origin db (h ++ l) x := by
  unfold Origin at hx ⊢
  split
  · next hg =>
    rw [if_pos hg] at hx
    obtain ⟨topic, h1, h2⟩ := hx
    refine ⟨topic, h1, h2.imp ?_ id⟩
    rintro ⟨a, b, c, hm⟩
    exact ⟨a, b, c, List.mem_append_left _ hm⟩
  · next hg =>
    rw [if_neg hg] at hx
    obtain ⟨a, b, c, d, hm⟩ := hx
    exact ⟨a, b, c, d, List.mem_append_left _ hm⟩

theorem kept_source {dflt : Nat} {db : List Row} {t0 u0 : Nat} {topic : Str} {h : List Op} {k : Kept}
    (hk : keptRev dflt (baseOf db t0 u0) topic h = some k) :
    (∃ ttl now unixNow, Op.publish topic k.data true ttl now unixNow ∈ h) ∨ ∃ u, (topic, k.data, u) ∈ db := by
  induction h with
  | nil =>
    simp only [keptRev, baseOf] at hk
    cases hm : mget db topic with
    | none => rw [hm] at hk; cases hk
    | some v =>
      rw [hm] at hk
      obtain ⟨d, u⟩ := v
      refine .inr ⟨u, ?_⟩
      have := mget_some_mem hm
      cases u <;> cases hk <;> exact this
  | cons o h ih =>
    have lift : ((∃ ttl now unixNow, Op.publish topic k.data true ttl now unixNow ∈ h) ∨ ∃ u, (topic, k.data, u) ∈ db) →
        (∃ ttl now unixNow, Op.publish topic k.data true ttl now unixNow ∈ o :: h) ∨ ∃ u, (topic, k.data, u) ∈ db := by
      rintro (⟨a, b, c, hm⟩ | h)
      · exact .inl ⟨a, b, c, List.mem_cons_of_mem _ hm⟩
      · exact .inr h
    cases o with
    | publish t d keep ttl now u =>
      cases keep with
      | false => exact lift (ih hk)
      | true =>
        simp only [keptRev] at hk
        split at hk
        · next ht =>
          subst ht
          split at hk
          · cases hk
          · split at hk
            · cases hk
              exact .inl ⟨ttl, now, u, by simp⟩
            · exact lift (ih hk)
        · exact lift (ih hk)
    | _ => exact lift (ih hk)

theorem mem_toConn {conn : Option Cid} {l : List (Cid × Msg)} {m : Msg} (h : m ∈ toConn conn l) : ∃ c, conn = some c ∧ (c, m) ∈ l := by
  unfold toConn at h
  obtain ⟨⟨c, m'⟩, h1, h2⟩ := List.mem_filterMap.mp h
  split at h2
  · next hc =>
    cases h2
    exact ⟨c, hc, h1⟩
  · cases h2

theorem exec_origin {dflt : Nat} {db : List Row} (hdb : (db.map (·.1)).Nodup) {t0 u0 : Nat} {n : Net} (ht : Traced dflt db t0 u0 n)
    {op : Op} (hv : Valid t0 (n.done ++ [op])) {x : Push}
    (hx : x ∈ (toConn n.conn (PubSub.step dflt n.server op).2.sent).map (fun m => (⟨m, isSubscribe op⟩ : Push))) :
    Origin db (n.done ++ [op]) x := by
  obtain ⟨m, hm, rfl⟩ := List.mem_map.mp hx
  obtain ⟨c, hc, hm⟩ := mem_toConn hm
  have hsrv : n.server = (PubSub.run dflt (boot db t0 u0) n.done).1 := ht
  have hv1 : Valid t0 n.done := hv.init.1
  cases op with
  | publish topic data keep ttl now unixNow =>
    show Origin db _ ⟨m, false⟩
    unfold Origin
    rw [if_neg (by simp)]
    have hmt : m = ⟨topic, data⟩ := by
      simp only [PubSub.step] at hm
      cases hr : reachesRouting dflt data keep ttl now with
      | false => rw [publish_panics hr] at hm; cases hm
      | true =>
        obtain ⟨s', h1, _, _⟩ := publish_eq (s := n.server) (topic := topic) (unixNow := unixNow) hr
        rw [h1, mem_deliver] at hm
        exact hm.1
    subst hmt
    exact ⟨keep, ttl, now, unixNow, by simp⟩
  | subscribe d q order now =>
    show Origin db _ ⟨m, true⟩
    have hsent : (c, m) ∈ (answer dflt (boot db t0 u0) n.done (.subscribe d q order now)).sent := by
      unfold answer; rw [← hsrv]; exact hm
    by_cases hcon : connected d n.done = true
    · obtain ⟨ts, _, h2, h3⟩ := subscription_sent (dflt := dflt) hdb hv hcon
      rw [h3.mem_iff] at hsent
      obtain ⟨topic, h4, h5⟩ := List.mem_map.mp hsent
      obtain ⟨_, k, h6, _⟩ := (h2 topic).mp h4
      rw [h6] at h5
      cases h5
      refine Origin.mono (l := [_]) ?_
      unfold Origin
      rw [if_pos rfl]
      refine ⟨topic, rfl, ?_⟩
      rcases kept_source h6 with ⟨a, b, e, hm⟩ | hm
      · exact .inl ⟨a, b, e, List.mem_reverse.mp hm⟩
      · exact .inr hm
    · exfalso
      have hi := SubInv.of_run (dflt := dflt) (db := db) (t0 := t0) (u0 := u0) n.done hv1.fresh
      rw [← hsrv] at hi
      simp only [PubSub.step, PubSub.subscribe] at hm
      split at hm
      · cases hm
      · next info hg =>
        simp only at hm
        split at hm
        · next ha =>
          rw [(hi.reg _ _ hg).2] at ha
          exact hcon ha
        · cases hm
  | connect d => simp [PubSub.step] at hm
  | drop d => simp [PubSub.step] at hm
  | disconnect d => simp [PubSub.step] at hm
  | unsubscribe d q => simp [PubSub.step] at hm
  | cleanup now => simp [PubSub.step] at hm
  | flush now ok =>
    simp only [PubSub.step] at hm
    split at hm <;> cases hm

/-- Everything under way, and everything that callbacks have been called with, has an origin; callbacks are called for what
their pattern accepts. -/
structure Sourced (db : List Row) (n : Net) : Prop where
  pushes : ∀ x ∈ n.pushes, Origin db n.done x
  calls : ∀ e ∈ n.calls, Origin db n.done e.2 ∧ accepts e.1 e.2.msg.topic = true

theorem Sourced.mono {db : List Row} {n m : Net} (h : Sourced db n) {l : List Op} (hd : m.done = n.done ++ l)
    (hp : ∀ x ∈ m.pushes, x ∈ n.pushes ∨ Origin db m.done x) (hc : m.calls = n.calls) : Sourced db m := by
  constructor
  · intro x hx
    rcases hp x hx with h1 | h1
    · rw [hd]; exact (h.pushes x h1).mono
    · exact h1
  · intro e he
    rw [hc] at he
    rw [hd]
    exact ⟨(h.calls e he).1.mono, (h.calls e he).2⟩

theorem Sourced.exec {dflt : Nat} {db : List Row} (hdb : (db.map (·.1)).Nodup) {t0 u0 : Nat} {n m : Net} (h : Sourced db n)
    (ht : Traced dflt db t0 u0 m) (hd : m.done = n.done) (hp : m.pushes = n.pushes) (hc : m.calls = n.calls) {op : Op}
    (hv : Valid t0 (m.exec dflt op).done) : Sourced db (m.exec dflt op) := by
  have hdone : (m.exec dflt op).done = n.done ++ [op] := by rw [← hd]; rfl
  refine h.mono hdone ?_ hc
  intro x hx
  have hx : x ∈ m.pushes ++ _ := hx
  rcases List.mem_append.mp hx with hx | hx
  · exact .inl (hp ▸ hx)
  · exact .inr (exec_origin hdb ht hv hx)

theorem Sourced.step {dflt : Nat} {db : List Row} (hdb : (db.map (·.1)).Nodup) {t0 u0 : Nat} {n : Net} (h : Sourced db n)
    (ht : Traced dflt db t0 u0 n) (hg : Good n.link.client) (e : NEv) (hv : Valid t0 (n.step dflt e).done) : Sourced db (n.step dflt e) := by
  have hsame : ∀ m : Net, m.done = n.done → m.pushes = n.pushes → m.calls = n.calls → Sourced db m := by
    intro m h1 h2 h3
    exact h.mono (l := []) (by rw [h1, List.append_nil]) (fun x hx => .inl (h2 ▸ hx)) h3
  cases e with
  | subscribe t => exact hsame _ rfl rfl rfl
  | unsubscribe t => exact hsame _ rfl rfl rfl
  | answer i => exact hsame _ rfl rfl rfl
  | timeout i => exact hsame _ rfl rfl rfl
  | lost => exact h.mono (l := []) (List.append_nil _).symm (fun x hx => nomatch hx) rfl
  | serve i order now =>
    simp only [Net.step] at hv ⊢
    split
    · next c r h1 h2 =>
      rw [h1, h2] at hv
      exact Sourced.exec hdb h (m := { n with link := n.link.step (.serve i) }) ht rfl rfl rfl hv
    · exact hsame _ rfl rfl rfl
  | reconnect c =>
    simp only [Net.step] at hv ⊢
    split
    · exact h
    · next hup =>
      rw [if_neg hup] at hv
      exact Sourced.exec hdb h (m := { n with link := n.link.step .reconnect, conn := some c }) ht rfl rfl rfl hv
  | other op =>
    simp only [Net.step] at hv ⊢
    split
    · exact h
    · next hc =>
      rw [if_neg hc] at hv
      exact Sourced.exec hdb h ht rfl rfl rfl hv
  | arrive =>
    simp only [Net.step]
    split
    · exact h
    · next x rest hx =>
      refine ⟨fun y hy => h.pushes y (by rw [hx]; exact List.mem_cons_of_mem _ hy), ?_⟩
      intro e he
      rcases List.mem_append.mp he with he | he
      · exact h.calls e he
      · obtain ⟨p, hp, rfl⟩ := List.mem_map.mp he
        exact ⟨h.pushes x (by rw [hx]; simp), (hg.mem_dispatch.mp hp).2⟩

theorem Traced.run {dflt : Nat} {db : List Row} {t0 u0 : Nat} {n : Net} (h : Traced dflt db t0 u0 n) (es : List NEv) :
    Traced dflt db t0 u0 (n.run dflt es) := by
  induction es generalizing n with
  | nil => exact h
  | cons e es ih => exact ih (h.step e)

theorem good_init (dflt : Nat) (db : List Row) (t0 u0 : Nat) (c : Cid) : Good (Net.init dflt db t0 u0 c).link.client := Good.init

theorem Valid.left {t0 : Nat} {a b : List Op} (h : Valid t0 (a ++ b)) : Valid t0 a := by
  induction b using Verif.Sdk.snoc_ind with
  | h0 => rwa [List.append_nil] at h
  | h1 b o ih =>
    rw [← List.append_assoc] at h
    exact ih h.init.1

theorem Sourced.run {dflt : Nat} {db : List Row} (hdb : (db.map (·.1)).Nodup) {t0 u0 : Nat} {c : Cid} (es : List NEv)
    (hv : Valid t0 ((Net.init dflt db t0 u0 c).run dflt es).done) : Sourced db ((Net.init dflt db t0 u0 c).run dflt es) := by
  induction es using Verif.Sdk.snoc_ind with
  | h0 =>
    refine ⟨?_, fun e he => nomatch he⟩
    intro x hx
    simp [Net.run, Net.init, Net.exec, PubSub.step, toConn] at hx
  | h1 es e ih =>
    rw [Net.run_snoc] at hv ⊢
    obtain ⟨l, hl⟩ := step_done dflt ((Net.init dflt db t0 u0 c).run dflt es) e
    have hv' : Valid t0 ((Net.init dflt db t0 u0 c).run dflt es).done := by
      rw [hl] at hv; exact Valid.left hv
    exact (ih hv').step hdb ((Traced.init dflt db t0 u0 c).run es) (good_run dflt (good_init dflt db t0 u0 c) es) e hv

/-! ### The retained values -/

/-- The callback stays, also while the subscription is not answered, as long as nothing times out. -/
theorem callback_stays {l : Link} {p : Str} (ht : p ∈ l.client.topics) (hk : ∀ r ∈ l.toServer ++ l.toClient, r.topic = p → r.kind ≠ .unsub)
    {e : LEv} (h1 : e ≠ .unsubscribe p) (h2 : e ≠ .lost) (h3 : ∀ id, e ≠ .timeout id) :
    p ∈ (l.step e).client.topics ∧ ∀ r ∈ (l.step e).toServer ++ (l.step e).toClient, r.topic = p → r.kind ≠ .unsub := by
  cases e with
  | subscribe t =>
    simp only [Link.step]
    split
    · exact ⟨ht, hk⟩
    · next hn =>
      split
      · refine ⟨mem_topics_subscribe.mpr (.inr ht), ?_⟩
        intro r hr hrp
        simp only [List.mem_append, List.mem_singleton] at hr
        rcases hr with (hr | rfl) | hr
        · exact hk r (List.mem_append_left _ hr) hrp
        · simp
        · exact hk r (List.mem_append_right _ hr) hrp
      · exact ⟨ht, hk⟩
  | unsubscribe t =>
    simp only [Link.step]
    split
    · refine ⟨ht, ?_⟩
      intro r hr hrp
      simp only [List.mem_append, List.mem_singleton] at hr
      rcases hr with (hr | rfl) | hr
      · exact hk r (List.mem_append_left _ hr) hrp
      · exact absurd (show t = p from hrp) (fun h => h1 (by rw [h]))
      · exact hk r (List.mem_append_right _ hr) hrp
    · exact ⟨ht, hk⟩
  | serve i =>
    simp only [Link.step]
    split
    · exact ⟨ht, hk⟩
    · next q hq =>
      refine ⟨ht, ?_⟩
      intro r hr hrp
      simp only [List.mem_append, List.mem_singleton] at hr
      rcases hr with hr | hr | rfl
      · exact hk r (List.mem_append_left _ (List.mem_of_mem_eraseIdx hr)) hrp
      · exact hk r (List.mem_append_right _ hr) hrp
      · exact hk r (List.mem_append_left _ (List.mem_of_getElem? hq)) hrp
  | answer i =>
    have hsub : ∀ r ∈ l.toServer ++ l.toClient.eraseIdx i, r.topic = p → r.kind ≠ .unsub := by
      intro r hr hrp
      refine hk r ?_ hrp
      simp only [List.mem_append] at hr ⊢
      exact hr.imp id List.mem_of_mem_eraseIdx
    simp only [Link.step]
    split
    · exact ⟨ht, hk⟩
    · next q hq =>
      split
      · exact ⟨ht, hsub⟩
      · split
        · next hku =>
          refine ⟨mem_topics_unsubscribe.mpr ⟨ht, ?_⟩, hsub⟩
          intro hc
          exact hk q (List.mem_append_right _ (List.mem_of_getElem? hq)) hc.symm hku
        · exact ⟨ht, hsub⟩
  | timeout id => exact absurd rfl (h3 id)
  | lost => exact absurd rfl h2
  | reconnect =>
    simp only [Link.step]
    split
    · exact ⟨ht, hk⟩
    · refine ⟨ht, ?_⟩
      intro r hr hrp
      simp only [List.mem_append] at hr
      rcases hr with hr | hr
      · rw [resend_kind hr]; simp
      · exact hk r (List.mem_append_right _ hr) hrp

theorem step_delivers {dflt : Nat} {n : Net} {p : Str} {x : Push} (hg : Good n.link.client) (ht : p ∈ n.link.client.topics)
    (ha : accepts p x.msg.topic = true) (h : x ∈ n.pushes ∨ (p, x) ∈ n.calls) {e : NEv} (hl : e ≠ .lost) :
    x ∈ (n.step dflt e).pushes ∨ (p, x) ∈ (n.step dflt e).calls := by
  have hexec : ∀ (m : Net) (op : Op), m.pushes = n.pushes → m.calls = n.calls → x ∈ (m.exec dflt op).pushes ∨ (p, x) ∈ (m.exec dflt op).calls := by
    intro m op h1 h2
    rcases h with h | h
    · exact .inl (List.mem_append_left _ (h1 ▸ h))
    · exact .inr (show (p, x) ∈ m.calls from h2 ▸ h)
  cases e with
  | subscribe t => exact h
  | unsubscribe t => exact h
  | answer i => exact h
  | timeout i => exact h
  | lost => exact absurd rfl hl
  | serve i order now =>
    simp only [Net.step]
    split
    · exact hexec { n with link := n.link.step (.serve i) } _ rfl rfl
    · exact h
  | reconnect c =>
    simp only [Net.step]
    split
    · exact h
    · exact hexec { n with link := n.link.step .reconnect, conn := some c } _ rfl rfl
  | other op =>
    simp only [Net.step]
    split
    · exact h
    · exact hexec n _ rfl rfl
  | arrive =>
    simp only [Net.step]
    split
    · exact h
    · next y rest hy =>
      rcases h with h | h
      · rw [hy] at h
        rcases List.mem_cons.mp h with rfl | h
        · exact .inr (List.mem_append_right _ (List.mem_map.mpr ⟨p, hg.mem_dispatch.mpr ⟨ht, ha⟩, rfl⟩))
        · exact .inl h
      · exact .inr (List.mem_append_left _ h)

theorem run_delivers {dflt : Nat} {n : Net} {p : Str} {x : Push} (hg : Good n.link.client) (ht : p ∈ n.link.client.topics)
    (hk : ∀ r ∈ n.link.toServer ++ n.link.toClient, r.topic = p → r.kind ≠ .unsub)
    (ha : accepts p x.msg.topic = true) (h : x ∈ n.pushes ∨ (p, x) ∈ n.calls) (es : List NEv) (hl : NEv.lost ∉ es)
    (hu : NEv.unsubscribe p ∉ es) (hto : ∀ id, NEv.timeout id ∉ es) : x ∈ (n.run dflt es).pushes ∨ (p, x) ∈ (n.run dflt es).calls := by
  induction es generalizing n with
  | nil => exact h
  | cons e es ih =>
    have hl' : e ≠ .lost := fun hc => hl (by rw [hc]; simp)
    have hstay : p ∈ (n.step dflt e).link.client.topics ∧
        ∀ r ∈ (n.step dflt e).link.toServer ++ (n.step dflt e).link.toClient, r.topic = p → r.kind ≠ .unsub := by
      rw [step_link]
      cases hle : e.link? with
      | none => exact ⟨ht, hk⟩
      | some le =>
        refine callback_stays ht hk ?_ ?_ ?_
        · rintro rfl
          cases e <;> simp [NEv.link?] at hle
          subst hle
          exact hu (by simp)
        · rintro rfl
          cases e <;> simp [NEv.link?] at hle
          exact hl' rfl
        · rintro id rfl
          cases e <;> simp [NEv.link?] at hle
          subst hle
          exact hto _ (List.mem_cons_self ..)
    refine ih (n := n.step dflt e) ?_ hstay.1 hstay.2 (step_delivers hg ht ha h hl') (fun hm => hl (List.mem_cons_of_mem _ hm))
      (fun hm => hu (List.mem_cons_of_mem _ hm)) (fun id hm => hto id (List.mem_cons_of_mem _ hm))
    rw [step_link]
    cases e.link? with
    | none => exact hg
    | some le => exact hg.link le

end Verif.PubSub.E2E
