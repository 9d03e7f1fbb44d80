import Verif.Spec.PubSubE2E
import Verif.Proofs.SdkSubs
import Verif.Props.PubSub

/-! # Publish to callback: proofs -/

namespace Verif.PubSub.E2E

open Verif.PubSub Verif.PubSub.Sdk

/-! ### The client's callbacks -/

/-- Each callback is kept in the map it belongs to. -/
structure Good (c : Client) : Prop where
  ok : c.Ok
  ex : ∀ t ∈ c.exact, isWildcard t = false
  wi : ∀ t ∈ c.wild, isWildcard t = true

theorem Good.unsubscribe {c : Client} (h : Good c) (t : Str) : Good (c.unsubscribe t) :=
  ⟨h.ok.unsubscribe t, fun u hu => h.ex u (mem_setRemove.mp hu).1, fun u hu => h.wi u (mem_setRemove.mp hu).1⟩

theorem Good.subscribe {c : Client} (h : Good c) (t : Str) : Good (c.subscribe t) := by
  refine ⟨h.ok.subscribe t, ?_, ?_⟩
  · unfold Client.subscribe
    split
    · exact h.ex
    · split
      · exact h.ex
      · next hw =>
        intro u hu
        rcases List.mem_append.mp hu with hu | hu
        · exact h.ex u hu
        · simp at hu; subst hu; simpa using hw
  · unfold Client.subscribe
    split
    · exact h.wi
    · split
      · next hw =>
        intro u hu
        rcases List.mem_append.mp hu with hu | hu
        · exact h.wi u hu
        · simp at hu; subst hu; exact hw
      · exact h.wi

theorem Good.failed {c : Client} (h : Good c) (r : Sdk.Req) : Good (Sdk.failed c r) := by
  unfold Sdk.failed
  split
  · exact h.unsubscribe _
  · exact h

theorem Good.foldl {c : Client} (h : Good c) (rs : List Sdk.Req) : Good (rs.foldl Sdk.failed c) := by
  induction rs generalizing c with
  | nil => exact h
  | cons r rs ih => exact ih (h.failed r)

theorem Good.link {l : Link} (h : Good l.client) (e : LEv) : Good (l.step e).client := by
  cases e with
  | subscribe t =>
    simp only [Link.step]
    split
    · exact h
    · split
      · exact h.subscribe t
      · exact h
  | unsubscribe t =>
    simp only [Link.step]
    split <;> exact h
  | serve i =>
    simp only [Link.step]
    split <;> exact h
  | answer i =>
    simp only [Link.step]
    split
    · exact h
    · split
      · exact h
      · split
        · exact h.unsubscribe _
        · exact h
  | timeout id =>
    simp only [Link.step]
    split
    · exact h.failed _
    · exact h
  | lost => exact h.foldl _
  | reconnect =>
    simp only [Link.step]
    split <;> exact h

theorem Good.init : Good ({} : Client) := ⟨⟨List.nodup_nil, List.nodup_nil, by simp⟩, by simp, by simp⟩

theorem Good.dispatch_nodup {c : Client} (h : Good c) (topic : Str) : (c.dispatch topic).Nodup := by
  unfold Client.dispatch
  refine List.nodup_append.mpr ⟨by split <;> simp, h.ok.wild.filter _, ?_⟩
  intro a ha b hb hab
  subst hab
  split at ha
  · next ht =>
    simp at ha; subst ha
    exact h.ok.apart a ht (List.mem_filter.mp hb).1
  · cases ha

theorem Good.mem_dispatch {c : Client} (h : Good c) {p topic : Str} :
    p ∈ c.dispatch topic ↔ p ∈ c.topics ∧ accepts p topic = true := by
  unfold Client.dispatch Client.topics accepts
  simp only [List.mem_append, List.mem_filter]
  constructor
  · rintro (h1 | ⟨h1, h2⟩)
    · split at h1
      · next ht =>
        simp at h1; subst h1
        exact ⟨.inl ht, by simp [h.ex p ht]⟩
      · cases h1
    · exact ⟨.inr h1, by rw [if_pos (h.wi p h1)]; exact h2⟩
  · rintro ⟨h1 | h1, h2⟩
    · have := h.ex p h1
      rw [this] at h2
      simp at h2; subst h2
      exact .inl (by simp [h1])
    · rw [if_pos (h.wi p h1)] at h2
      exact .inr ⟨h1, h2⟩

theorem callsOf_append (p : Str) (a b : List (Str × Push)) : callsOf p (a ++ b) = callsOf p a ++ callsOf p b := by
  simp [callsOf]

theorem callsOf_map {p : Str} {ps : List Str} {x : Push} (h : ps.Nodup) :
    callsOf p (ps.map (fun q => (q, x))) = if p ∈ ps then [x] else [] := by
  induction ps with
  | nil => simp [callsOf]
  | cons q ps ih =>
    obtain ⟨h1, h2⟩ := List.nodup_cons.mp h
    have := ih h2
    unfold callsOf at this ⊢
    rw [List.map_cons, List.filter_cons]
    by_cases hq : q = p
    · subst hq
      rw [if_neg h1] at this
      simp only [decide_true, if_true, List.map_cons, this, List.mem_cons, true_or]
    · have : p ∈ q :: ps ↔ p ∈ ps := by
        rw [List.mem_cons]; exact ⟨fun h => h.resolve_left (Ne.symm hq), .inr⟩
      simp only [hq, decide_false, Bool.false_eq_true, if_false, this]
      assumption

theorem fresh_append (a b : List Push) : fresh (a ++ b) = fresh a ++ fresh b := by simp [fresh]

theorem matching_append (p : Str) (a b : List Msg) : matching p (a ++ b) = matching p a ++ matching p b := by
  simp [matching]

/-! ### The server's side -/

theorem toConn_none {c : Cid} {l : List (Cid × Msg)} (h : ∀ m, (c, m) ∉ l) : toConn (some c) l = [] := by
  unfold toConn
  rw [List.filterMap_eq_nil_iff]
  rintro ⟨d, m⟩ hm
  rw [if_neg]
  intro hc
  injection hc with hc
  subst hc
  exact h m hm

theorem toConn_one {c : Cid} {m : Msg} {l : List (Cid × Msg)} (hn : (l.map (·.1)).Nodup) (h : (c, m) ∈ l) :
    toConn (some c) l = [m] := by
  induction l with
  | nil => cases h
  | cons e l ih =>
    rw [List.map_cons] at hn
    obtain ⟨h1, h2⟩ := List.nodup_cons.mp hn
    rcases List.mem_cons.mp h with rfl | h
    · have : toConn (some c) l = [] := toConn_none (fun m' hm' => h1 (List.mem_map.mpr ⟨_, hm', rfl⟩))
      unfold toConn at this ⊢
      rw [List.filterMap_cons, if_pos rfl]
      simp only [this]
    · have hne : (some c) ≠ some e.1 := by
        intro hc
        injection hc with hc
        exact h1 (List.mem_map.mpr ⟨_, h, hc⟩)
      have := ih h2 h
      unfold toConn at this ⊢
      rw [List.filterMap_cons, if_neg hne]
      exact this

theorem toConn_off (l : List (Cid × Msg)) : toConn none l = [] := by
  unfold toConn
  rw [List.filterMap_eq_nil_iff]
  intro e _
  simp

/-- The state of the server is what its operations make of it. -/
def Traced (dflt : Nat) (db : List Row) (t0 u0 : Nat) (n : Net) : Prop :=
  n.server = (PubSub.run dflt (boot db t0 u0) n.done).1

theorem run_append_fst (dflt : Nat) (s : State) (a b : List Op) :
    (PubSub.run dflt s (a ++ b)).1 = (PubSub.run dflt (PubSub.run dflt s a).1 b).1 := by
  induction a generalizing s with
  | nil => rfl
  | cons o a ih => exact ih _

theorem Traced.exec {dflt : Nat} {db : List Row} {t0 u0 : Nat} {n : Net} (h : Traced dflt db t0 u0 n) (op : Op) :
    Traced dflt db t0 u0 (n.exec dflt op) := by
  unfold Traced at h ⊢
  simp only [Net.exec]
  rw [run_append_fst, ← h]
  rfl

theorem Traced.step {dflt : Nat} {db : List Row} {t0 u0 : Nat} {n : Net} (h : Traced dflt db t0 u0 n) (e : NEv) :
    Traced dflt db t0 u0 (n.step dflt e) := by
  cases e with
  | subscribe t => exact h
  | unsubscribe t => exact h
  | answer i => exact h
  | timeout i => exact h
  | serve i order now =>
    simp only [Net.step]
    split
    · exact Traced.exec (n := { n with link := n.link.step (.serve i) }) h _
    · exact h
  | lost => exact h
  | reconnect c =>
    simp only [Net.step]
    split
    · exact h
    · exact Traced.exec (n := { n with link := n.link.step .reconnect, conn := some c }) h _
  | other op =>
    simp only [Net.step]
    split
    · exact h
    · exact h.exec op
  | arrive =>
    simp only [Net.step]
    split <;> exact h

theorem Traced.init (dflt : Nat) (db : List Row) (t0 u0 : Nat) (c : Cid) : Traced dflt db t0 u0 (Net.init dflt db t0 u0 c) :=
  Traced.exec (n := { server := boot db t0 u0, conn := some c }) rfl _

theorem Net.run_append (dflt : Nat) (n : Net) (a b : List NEv) : n.run dflt (a ++ b) = (n.run dflt a).run dflt b := by
  simp [Net.run]

theorem Net.run_snoc (dflt : Nat) (n : Net) (a : List NEv) (e : NEv) : n.run dflt (a ++ [e]) = (n.run dflt a).step dflt e := by
  simp [Net.run]

/-- What the server does is added to what it has done. -/
theorem step_done (dflt : Nat) (n : Net) (e : NEv) : ∃ l, (n.step dflt e).done = n.done ++ l := by
  cases e with
  | subscribe t => exact ⟨[], (List.append_nil _).symm⟩
  | unsubscribe t => exact ⟨[], (List.append_nil _).symm⟩
  | answer i => exact ⟨[], (List.append_nil _).symm⟩
  | timeout i => exact ⟨[], (List.append_nil _).symm⟩
  | serve i order now =>
    simp only [Net.step]
    split
    · exact ⟨_, rfl⟩
    · exact ⟨[], (List.append_nil _).symm⟩
  | lost => exact ⟨[], (List.append_nil _).symm⟩
  | reconnect c =>
    simp only [Net.step]
    split
    · exact ⟨[], (List.append_nil _).symm⟩
    · exact ⟨_, rfl⟩
  | other op =>
    simp only [Net.step]
    split
    · exact ⟨[], (List.append_nil _).symm⟩
    · exact ⟨_, rfl⟩
  | arrive =>
    simp only [Net.step]
    split <;> exact ⟨[], (List.append_nil _).symm⟩

theorem run_done (dflt : Nat) (n : Net) (es : List NEv) : ∃ l, (n.run dflt es).done = n.done ++ l := by
  induction es generalizing n with
  | nil => exact ⟨[], (List.append_nil _).symm⟩
  | cons e es ih =>
    obtain ⟨l, hl⟩ := ih (n.step dflt e)
    obtain ⟨l', hl'⟩ := step_done dflt n e
    exact ⟨l' ++ l, by show ((n.step dflt e).run dflt es).done = _; rw [hl, hl', List.append_assoc]⟩

/-- The link goes its way as in `SdkSubs`. -/
theorem step_link (dflt : Nat) (n : Net) (e : NEv) :
    (n.step dflt e).link = match e.link? with | some le => n.link.step le | none => n.link := by
  cases e with
  | subscribe t => rfl
  | unsubscribe t => rfl
  | answer i => rfl
  | timeout i => rfl
  | serve i order now =>
    simp only [Net.step, NEv.link?]
    split <;> rfl
  | lost => rfl
  | reconnect c =>
    simp only [Net.step, NEv.link?]
    split
    · next h => simp only [Link.step, h, if_true]
    · rfl
  | other op =>
    simp only [Net.step, NEv.link?]
    split <;> rfl
  | arrive =>
    simp only [Net.step, NEv.link?]
    split <;> rfl

theorem run_link (dflt : Nat) (n : Net) (es : List NEv) : (n.run dflt es).link = Link.run n.link (linkEvents es) := by
  induction es generalizing n with
  | nil => rfl
  | cons e es ih =>
    show ((n.step dflt e).run dflt es).link = _
    rw [ih, step_link]
    unfold linkEvents
    rw [List.filterMap_cons]
    cases e.link? <;> rfl

theorem good_run (dflt : Nat) {n : Net} (h : Good n.link.client) (es : List NEv) : Good (n.run dflt es).link.client := by
  induction es generalizing n with
  | nil => exact h
  | cons e es ih =>
    refine ih (n := n.step dflt e) ?_
    rw [step_link]
    cases e.link? with
    | none => exact h
    | some le => exact h.link le

theorem connected_snoc {c : Cid} {h : List Op} {op : Op} (hc : connected c h = true) (h1 : op ≠ .drop c) (h2 : op ≠ .disconnect c) :
    connected c (h ++ [op]) = true := by
  unfold connected at hc ⊢
  rw [List.reverse_append]
  show connectedRev c (op :: h.reverse) = true
  cases op with
  | drop d =>
    have : d ≠ c := fun h => h1 (by rw [h])
    simp [connectedRev, hc, this]
  | disconnect d =>
    have : d ≠ c := fun h => h2 (by rw [h])
    simp [connectedRev, hc, this]
  | _ => simp [connectedRev, hc]

theorem subscribed_snoc {c : Cid} {p : Str} {h : List Op} {op : Op} (hc : subscribed c p h = true) (h1 : op ≠ .drop c) (h2 : op ≠ .disconnect c)
    (h3 : op ≠ .unsubscribe c p) : subscribed c p (h ++ [op]) = true := by
  unfold subscribed at hc ⊢
  rw [List.reverse_append]
  show subscribedRev c p (op :: h.reverse) = true
  cases op with
  | drop d =>
    have : d ≠ c := fun h => h1 (by rw [h])
    simp [subscribedRev, hc, this]
  | disconnect d =>
    have : d ≠ c := fun h => h2 (by rw [h])
    simp [subscribedRev, hc, this]
  | unsubscribe d q =>
    have : ¬(d = c ∧ q = p) := fun h => h3 (by rw [h.1, h.2])
    simp only [subscribedRev, hc, Bool.and_true, Bool.not_eq_true', Bool.and_eq_false_iff, decide_eq_false_iff_not]
    by_cases hd : d = c
    · exact .inr (fun hq => this ⟨hd, hq⟩)
    · exact .inl hd
  | _ => simp [subscribedRev, hc]

/-- A client that has subscribed to a pattern, on a connection that is up. -/
structure Listening (dflt : Nat) (db : List Row) (t0 u0 : Nat) (c : Cid) (p : Str) (n : Net) : Prop where
  traced : Traced dflt db t0 u0 n
  good : Good n.link.client
  conn : n.conn = some c
  up : n.link.up = true
  topic : p ∈ n.link.client.topics
  idle : p ∉ n.link.busy
  conn' : connected c n.done = true
  sub : subscribed c p n.done = true

theorem idle_step {l : Link} {p : Str} (ht : p ∈ l.client.topics) (hb : p ∉ l.busy) (hup : l.up = true) {e : LEv} (h1 : e ≠ .unsubscribe p)
    (h2 : e ≠ .lost) : p ∈ (l.step e).client.topics ∧ p ∉ (l.step e).busy ∧ (l.step e).up = true := by
  have hs : l.settled p := by
    intro r hr hrt _
    exact absurd (List.mem_map.mpr ⟨r, hr, hrt⟩) hb
  refine ⟨(kept_step ht hs h1).1, ?_⟩
  cases e with
  | subscribe t =>
    simp only [Link.step]
    split
    · exact ⟨hb, hup⟩
    · next hn =>
      refine ⟨?_, hup⟩
      unfold Link.busy at hb ⊢
      simp only [List.map_append, List.mem_append, List.map_cons, List.map_nil, List.mem_singleton, not_or] at hb ⊢
      exact ⟨⟨hb.1, fun h => hn (h ▸ ht)⟩, hb.2⟩
  | unsubscribe t =>
    simp only [Link.step]
    split
    · refine ⟨?_, hup⟩
      unfold Link.busy at hb ⊢
      simp only [List.map_append, List.mem_append, List.map_cons, List.map_nil, List.mem_singleton, not_or] at hb ⊢
      exact ⟨⟨hb.1, fun h => h1 (by rw [h])⟩, hb.2⟩
    · exact ⟨hb, hup⟩
  | serve i =>
    simp only [Link.step]
    split
    · exact ⟨hb, hup⟩
    · next r hr =>
      refine ⟨?_, hup⟩
      unfold Link.busy at hb ⊢
      intro hm
      obtain ⟨q, hq, rfl⟩ := List.mem_map.mp hm
      refine hb (List.mem_map.mpr ⟨q, ?_, rfl⟩)
      simp only [List.mem_append, List.mem_singleton] at hq ⊢
      rcases hq with hq | hq | rfl
      · exact .inl (List.mem_of_mem_eraseIdx hq)
      · exact .inr hq
      · exact .inl (List.mem_of_getElem? hr)
  | answer i =>
    have hsub : ∀ i, p ∉ ({ l with toClient := l.toClient.eraseIdx i } : Link).busy := by
      intro i hm
      unfold Link.busy at hb hm
      obtain ⟨q, hq, rfl⟩ := List.mem_map.mp hm
      refine hb (List.mem_map.mpr ⟨q, ?_, rfl⟩)
      simp only [List.mem_append] at hq ⊢
      exact hq.imp id List.mem_of_mem_eraseIdx
    simp only [Link.step]
    split
    · exact ⟨hb, hup⟩
    · split
      · exact ⟨hsub i, hup⟩
      · split
        · exact ⟨hsub i, hup⟩
        · exact ⟨hsub i, hup⟩
  | timeout id =>
    simp only [Link.step]
    split
    · exact ⟨hb, hup⟩
    · exact ⟨hb, hup⟩
  | lost => exact absurd rfl h2
  | reconnect =>
    simp only [Link.step, if_pos hup]
    exact ⟨hb, hup⟩

/-- What one operation of the server adds to the messages under way for the subscriber. -/
theorem exec_pushes {dflt : Nat} {db : List Row} {t0 u0 : Nat} {c : Cid} {p : Str} {n : Net} (ht : Traced dflt db t0 u0 n)
    (hconn : n.conn = some c) (hc : connected c n.done = true) (hs : subscribed c p n.done = true)
    (hn : (connects n.done).Nodup) (hp : ∀ o ∈ n.done, o.proper = true) (op : Op)
    (hop : requestOf op ≠ some c ∨ isSubscribe op = true ∨ ∃ q, op = .unsubscribe c q) :
    ∃ new, (n.exec dflt op).pushes = n.pushes ++ new ∧ matching p (fresh new) = matching p (published dflt [.other op]) := by
  refine ⟨_, rfl, ?_⟩
  rw [hconn]
  have hpp : hashLast (split p) = true :=
    subscribed_proper (h := n.done.reverse) (fun o ho => hp o (List.mem_reverse.1 ho)) hs
  have htr : (PubSub.step dflt n.server op).2 = answer dflt (boot db t0 u0) n.done op := by
    unfold answer
    rw [show n.server = _ from ht]
  have hempty : ∀ l : List (Cid × Msg), (∀ m, (c, m) ∉ l) → ∀ b, fresh ((toConn (some c) l).map (fun m => (⟨m, b⟩ : Push))) = [] := by
    intro l hl b
    rw [toConn_none hl]; rfl
  cases op with
  | publish topic data keep ttl now unixNow =>
    by_cases hr : keep = true → data ≠ [] → representable now (ttl.getD dflt) = true
    · have hpub : published dflt [.other (.publish topic data keep ttl now unixNow)] = [⟨topic, data⟩] := by
        unfold published
        rw [if_neg]
        · rfl
        · rintro ⟨h1, h2, h3⟩
          rw [hr h1 h2] at h3; cases h3
      rw [hpub, htr]
      have hiff := C13_publish dflt db t0 u0 n.done hn hp topic data keep ttl now unixNow hr c
      have hone := (C14_one_copy dflt db t0 u0 n.done topic data keep ttl now unixNow).1
      by_cases hm : Matches (split p) (split topic)
      · have : (c, (⟨topic, data⟩ : Msg)) ∈ (answer dflt (boot db t0 u0) n.done (.publish topic data keep ttl now unixNow)).sent :=
          (hiff _).mpr ⟨rfl, hc, p, hs, hm⟩
        rw [toConn_one hone this]
        rfl
      · by_cases hg : (c, (⟨topic, data⟩ : Msg)) ∈ (answer dflt (boot db t0 u0) n.done (.publish topic data keep ttl now unixNow)).sent
        · rw [toConn_one hone hg]
          rfl
        · rw [hempty]
          · simp [matching, hm]
          · intro m hm'
            have := ((hiff m).mp hm').1
            subst this
            exact hg hm'
    · have hr1 : keep = true := by
        cases keep with
        | true => rfl
        | false => exact absurd (fun h => nomatch h) hr
      have hr2 : data ≠ [] := fun h => hr (fun _ h' => absurd h h')
      have hr3 : representable now (ttl.getD dflt) = false := by
        cases hh : representable now (ttl.getD dflt) with
        | false => rfl
        | true => exact absurd (fun _ _ => hh) hr
      have hpub : published dflt [.other (.publish topic data keep ttl now unixNow)] = [] := by
        unfold published
        rw [if_pos ⟨hr1, hr2, hr3⟩]
        rfl
      rw [hpub]
      have : reachesRouting dflt data keep ttl now = false := by
        cases hx : reachesRouting dflt data keep ttl now with
        | false => rfl
        | true =>
          unfold reachesRouting at hx
          rw [hr1, hr3] at hx
          cases data with
          | nil => exact absurd rfl hr2
          | cons a l => simp at hx
      simp only [PubSub.step]
      rw [publish_panics this]
      rfl
  | subscribe d q order now =>
    show matching p (fresh ((toConn (some c) _).map (fun m => (⟨m, true⟩ : Push)))) = []
    have : ∀ l : List Msg, fresh (l.map (fun m => (⟨m, true⟩ : Push))) = [] := by
      intro l
      unfold fresh
      rw [List.filter_eq_nil_iff.mpr]
      · rfl
      · intro x hx
        obtain ⟨m, _, rfl⟩ := List.mem_map.mp hx
        simp
    rw [this]; rfl
  | connect d => show matching p (fresh _) = []; rw [hempty]; · rfl
                 · intro m hm; simp [PubSub.step] at hm
  | drop d => show matching p (fresh _) = []; rw [hempty]; · rfl
              · intro m hm; simp [PubSub.step] at hm
  | disconnect d => show matching p (fresh _) = []; rw [hempty]; · rfl
                    · intro m hm; simp [PubSub.step] at hm
  | unsubscribe d q => show matching p (fresh _) = []; rw [hempty]; · rfl
                       · intro m hm; simp [PubSub.step] at hm
  | cleanup now => show matching p (fresh _) = []; rw [hempty]; · rfl
                   · intro m hm; simp [PubSub.step] at hm
  | flush now ok =>
    show matching p (fresh _) = []; rw [hempty]
    · rfl
    · intro m hm
      simp only [PubSub.step] at hm
      split at hm <;> cases hm

theorem Listening.exec {dflt : Nat} {db : List Row} {t0 u0 : Nat} {c : Cid} {p : Str} {n m : Net} (h : Listening dflt db t0 u0 c p n)
    {op : Op} (hm : m.link = n.link ∨ (p ∈ m.link.client.topics ∧ p ∉ m.link.busy ∧ m.link.up = true ∧ Good m.link.client))
    (h1 : m.server = n.server) (h2 : m.done = n.done) (h3 : m.conn = n.conn) (he : notEnded c (m.exec dflt op).done)
    (hop : op ≠ .unsubscribe c p) : Listening dflt db t0 u0 c p (m.exec dflt op) := by
  have hd : (m.exec dflt op).done = n.done ++ [op] := by rw [← h2]; rfl
  have hne1 : op ≠ .drop c := by
    rintro rfl
    exact he.1 (by rw [hd]; simp)
  have hne2 : op ≠ .disconnect c := by
    rintro rfl
    exact he.2 (by rw [hd]; simp)
  have hlink : p ∈ m.link.client.topics ∧ p ∉ m.link.busy ∧ m.link.up = true ∧ Good m.link.client := by
    rcases hm with hm | hm
    · rw [hm]; exact ⟨h.topic, h.idle, h.up, h.good⟩
    · exact hm
  refine ⟨?_, hlink.2.2.2, h3.trans h.conn, hlink.2.2.1, hlink.1, hlink.2.1, ?_, ?_⟩
  · exact Traced.exec (show m.server = _ by rw [h1, h2]; exact h.traced) op
  · rw [hd]; exact connected_snoc h.conn' hne1 hne2
  · rw [hd]; exact subscribed_snoc h.sub hne1 hne2 hop

theorem published_other {dflt : Nat} {e : NEv} (h : ∀ op, e ≠ .other op) : published dflt [e] = [] := by
  cases e with
  | other op => exact absurd rfl (h op)
  | _ => rfl

theorem published_append (dflt : Nat) (a b : List NEv) : published dflt (a ++ b) = published dflt a ++ published dflt b := by
  induction a with
  | nil => rfl
  | cons e a ih =>
    cases e with
    | other op =>
      cases op with
      | publish topic data keep ttl now unixNow =>
        simp only [List.cons_append, published]
        split
        · exact ih
        · rw [ih]; rfl
      | _ => exact ih
    | _ => exact ih

theorem Listening.step {dflt : Nat} {db : List Row} {t0 u0 : Nat} {c : Cid} {p : Str} {n : Net} (h : Listening dflt db t0 u0 c p n)
    (e : NEv) (hl : e ≠ .lost) (hu : e ≠ .unsubscribe p) (hn : (connects (n.step dflt e).done).Nodup)
    (hp : ∀ o ∈ (n.step dflt e).done, o.proper = true) (he : notEnded c (n.step dflt e).done) :
    Listening dflt db t0 u0 c p (n.step dflt e) ∧
    ∃ new, (n.step dflt e).calls = n.calls ++ new ∧
      fresh (callsOf p new) ++ matching p (fresh (n.step dflt e).pushes)
        = matching p (fresh n.pushes) ++ matching p (published dflt [e]) := by
  have hn' : (connects n.done).Nodup := by
    obtain ⟨l, hl⟩ := step_done dflt n e
    rw [hl, connects_append] at hn
    exact (List.nodup_append.mp hn).1
  have hp' : ∀ o ∈ n.done, o.proper = true := by
    obtain ⟨l, hl⟩ := step_done dflt n e
    rw [hl] at hp
    exact fun o ho => hp o (List.mem_append_left _ ho)
  have hpp : hashLast (split p) = true :=
    subscribed_proper (h := n.done.reverse) (fun o ho => hp' o (List.mem_reverse.1 ho)) h.sub
  -- events of the link alone
  have hlink : ∀ le : LEv, le ≠ .unsubscribe p → le ≠ .lost →
      Listening dflt db t0 u0 c p { n with link := n.link.step le } := by
    intro le h1 h2
    obtain ⟨h3, h4, h5⟩ := idle_step h.topic h.idle h.up h1 h2
    exact ⟨h.traced, h.good.link le, h.conn, h5, h3, h4, h.conn', h.sub⟩
  have hsame : ∀ m : Net, m.calls = n.calls → m.pushes = n.pushes → (∀ op, e ≠ .other op) →
      ∃ new, m.calls = n.calls ++ new ∧
        fresh (callsOf p new) ++ matching p (fresh m.pushes) = matching p (fresh n.pushes) ++ matching p (published dflt [e]) := by
    intro m h1 h2 h3
    refine ⟨[], by rw [h1, List.append_nil], ?_⟩
    rw [h2, published_other h3]
    show matching p (fresh n.pushes) = matching p (fresh n.pushes) ++ []
    rw [List.append_nil]
  cases e with
  | subscribe t => exact ⟨hlink _ (fun h => nomatch h) (fun h => nomatch h), hsame _ rfl rfl (fun _ h => nomatch h)⟩
  | unsubscribe t =>
    exact ⟨hlink _ (fun h => hu (by injection h with h; rw [h])) (fun h => nomatch h), hsame _ rfl rfl (fun _ h => nomatch h)⟩
  | answer i => exact ⟨hlink _ (fun h => nomatch h) (fun h => nomatch h), hsame _ rfl rfl (fun _ h => nomatch h)⟩
  | timeout i => exact ⟨hlink _ (fun h => nomatch h) (fun h => nomatch h), hsame _ rfl rfl (fun _ h => nomatch h)⟩
  | lost => exact absurd rfl hl
  | reconnect d =>
    have : n.step dflt (.reconnect d) = n := by simp only [Net.step, h.up, if_true]
    rw [this]
    exact ⟨h, hsame _ rfl rfl (fun _ h => nomatch h)⟩
  | serve i order now =>
    have hL := hlink (.serve i) (fun h => nomatch h) (fun h => nomatch h)
    cases hr : n.link.toServer[i]? with
    | none =>
      have : n.step dflt (.serve i order now) = { n with link := n.link.step (.serve i) } := by
        simp only [Net.step, h.conn, hr]
      rw [this]
      exact ⟨hL, hsame _ rfl rfl (fun _ h => nomatch h)⟩
    | some r =>
      have hstep : n.step dflt (.serve i order now) = ({ n with link := n.link.step (.serve i) } : Net).exec dflt (opOf c r order now) := by
        simp only [Net.step, h.conn, hr]
      have hrp : r.topic ≠ p := by
        intro hc
        exact h.idle (List.mem_map.mpr ⟨r, List.mem_append_left _ (List.mem_of_getElem? hr), hc⟩)
      have hne : opOf c r order now ≠ .unsubscribe c p := by
        unfold opOf
        split
        · intro hc; injection hc with _ hc; exact hrp hc
        · intro hc; cases hc
      rw [hstep] at he ⊢
      refine ⟨hL.exec (.inl rfl) rfl rfl rfl he hne, ?_⟩
      obtain ⟨new, h1, h2⟩ := exec_pushes (p := p) hL.traced hL.conn hL.conn' hL.sub hn' hp' (opOf c r order now) (by
        unfold opOf
        split
        · exact .inr (.inr ⟨_, rfl⟩)
        · exact .inr (.inl rfl))
      refine ⟨[], (List.append_nil _).symm, ?_⟩
      rw [h1, fresh_append, matching_append, h2, published_other (e := .serve i order now) (fun _ h => nomatch h)]
      have : published dflt [.other (opOf c r order now)] = [] := by
        unfold opOf
        split <;> rfl
      rw [this]
      rfl
  | other op =>
    by_cases hg : n.conn.isSome ∧ requestOf op = n.conn
    · have : n.step dflt (.other op) = n := by simp only [Net.step, hg, and_self, if_true]
      rw [this]
      refine ⟨h, [], (List.append_nil _).symm, ?_⟩
      have : published dflt [.other op] = [] := by
        rw [h.conn] at hg
        cases op with
        | publish => simp [requestOf] at hg
        | _ => rfl
      rw [this]
      show matching p (fresh n.pushes) = matching p (fresh n.pushes) ++ []
      rw [List.append_nil]
    · have hstep : n.step dflt (.other op) = n.exec dflt op := by simp only [Net.step, if_neg hg]
      have hrq : requestOf op ≠ some c := by
        intro hc
        exact hg ⟨by rw [h.conn]; rfl, by rw [h.conn]; exact hc⟩
      have hne : op ≠ .unsubscribe c p := by
        rintro rfl
        exact hrq rfl
      rw [hstep] at he ⊢
      refine ⟨h.exec (.inl rfl) rfl rfl rfl he hne, ?_⟩
      obtain ⟨new, h1, h2⟩ := exec_pushes (p := p) h.traced h.conn h.conn' h.sub hn' hp' op (.inl hrq)
      refine ⟨[], (List.append_nil _).symm, ?_⟩
      rw [h1, fresh_append, matching_append, h2]
      rfl
  | arrive =>
    cases hps : n.pushes with
    | nil =>
      have : n.step dflt .arrive = n := by simp only [Net.step, hps]
      rw [this, ← hps]
      exact ⟨h, hsame _ rfl rfl (fun _ h => nomatch h)⟩
    | cons x rest =>
      have hstep : n.step dflt .arrive
          = { n with pushes := rest, calls := n.calls ++ (n.link.client.dispatch x.msg.topic).map (fun p => (p, x)) } := by
        simp only [Net.step, hps]
      rw [hstep]
      refine ⟨⟨h.traced, h.good, h.conn, h.up, h.topic, h.idle, h.conn', h.sub⟩, _, rfl, ?_⟩
      rw [callsOf_map (h.good.dispatch_nodup _), published_other (e := .arrive) (fun _ h => nomatch h)]
      show _ = _ ++ []
      rw [List.append_nil]
      have hiff : p ∈ n.link.client.dispatch x.msg.topic ↔ Matches (split p) (split x.msg.topic) := by
        rw [h.good.mem_dispatch, accepts_matches hpp]
        exact ⟨fun h => h.2, fun hm => ⟨h.topic, hm⟩⟩
      have hcons : fresh (x :: rest) = fresh [x] ++ fresh rest := fresh_append [x] rest
      show _ ++ matching p (fresh rest) = _
      rw [hcons, matching_append]
      congr 1
      by_cases hm : Matches (split p) (split x.msg.topic)
      · rw [if_pos (hiff.mpr hm)]
        unfold fresh
        cases hx : x.greeting <;> simp [matching, hx, hm]
      · rw [if_neg (fun hc => hm (hiff.mp hc))]
        unfold fresh
        cases hx : x.greeting <;> simp [matching, hx, hm]

theorem Listening.run {dflt : Nat} {db : List Row} {t0 u0 : Nat} {c : Cid} {p : Str} {n : Net} (h : Listening dflt db t0 u0 c p n)
    (es : List NEv) (hl : NEv.lost ∉ es) (hu : NEv.unsubscribe p ∉ es) (hn : (connects (n.run dflt es).done).Nodup)
    (hp : ∀ o ∈ (n.run dflt es).done, o.proper = true) (he : notEnded c (n.run dflt es).done) :
    ∃ new, (n.run dflt es).calls = n.calls ++ new ∧
      fresh (callsOf p new) ++ matching p (fresh (n.run dflt es).pushes)
        = matching p (fresh n.pushes) ++ matching p (published dflt es) := by
  induction es generalizing n with
  | nil => exact ⟨[], (List.append_nil _).symm, (List.append_nil _).symm⟩
  | cons e es ih =>
    have hrun : n.run dflt (e :: es) = (n.step dflt e).run dflt es := rfl
    rw [hrun] at hn hp he ⊢
    obtain ⟨l, hd⟩ := run_done dflt (n.step dflt e) es
    have hn1 : (connects (n.step dflt e).done).Nodup := by
      rw [hd, connects_append] at hn; exact (List.nodup_append.mp hn).1
    have hp1 : ∀ o ∈ (n.step dflt e).done, o.proper = true := by
      rw [hd] at hp; exact fun o ho => hp o (List.mem_append_left _ ho)
    have he1 : notEnded c (n.step dflt e).done := by
      rw [hd] at he
      exact ⟨fun hm => he.1 (List.mem_append_left _ hm), fun hm => he.2 (List.mem_append_left _ hm)⟩
    obtain ⟨hL, new1, h1, h2⟩ := h.step e (fun hc => hl (by rw [hc]; simp)) (fun hc => hu (by rw [hc]; simp)) hn1 hp1 he1
    obtain ⟨new2, h3, h4⟩ := ih hL (fun hm => hl (List.mem_cons_of_mem _ hm)) (fun hm => hu (List.mem_cons_of_mem _ hm)) hn hp he
    refine ⟨new1 ++ new2, by rw [h3, h1, List.append_assoc], ?_⟩
    have : published dflt (e :: es) = published dflt [e] ++ published dflt es := published_append dflt [e] es
    rw [callsOf_append, fresh_append, List.append_assoc, h4, ← List.append_assoc, h2, List.append_assoc, this, matching_append]

end Verif.PubSub.E2E
