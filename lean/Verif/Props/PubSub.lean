import Verif.Proofs.PubSubHist
import Verif.Proofs.SdkPubSub

/-!
# Properties C13–C20 of publish/subscribe

Every theorem starts from a server booted on an arbitrary database of retained values.
-/

namespace Verif.PubSub

/-- The levels of a topic are the pieces between the separators. -/
theorem levels_spec (s : Str) : joinL (split s) = s ∧ ∀ x ∈ split s, slash ∉ x := by
  refine ⟨joinL_split s, ?_⟩
  induction s with
  | nil => simp [split]
  | cons c t ih =>
    unfold split
    split
    · intro x hx
      rcases List.mem_cons.1 hx with rfl | hx
      · simp
      · exact ih x hx
    · next hc =>
      cases hs : split t with
      | nil => exact absurd hs (split_ne_nil t)
      | cons y l =>
        rw [hs] at ih
        intro x hx
        simp only [List.headD_cons, List.tail_cons, List.mem_cons] at hx
        rcases hx with rfl | hx
        · simp only [List.mem_cons, not_or]; exact ⟨fun h => hc h.symm, ih y (List.mem_cons_self ..)⟩
        · exact ih x (List.mem_cons_of_mem _ hx)

theorem routing_iff {dflt : Nat} {data : Bytes} {keep : Bool} {ttl : Option Nat} {now : Nat}
    (h : keep = true → data ≠ [] → representable now (ttl.getD dflt) = true) :
    reachesRouting dflt data keep ttl now = true := by
  unfold reachesRouting
  cases keep with
  | false => rfl
  | true =>
    cases data with
    | nil => rfl
    | cons a b => rw [h rfl (by simp)]; simp

/-- What a publish sends, in terms of edges. -/
theorem publish_sent {dflt : Nat} {db : List Row} {t0 u0 : Nat} {h : List Op} (hn : (connects h).Nodup)
    {topic : Str} {data : Bytes} {keep : Bool} {ttl : Option Nat} {now unixNow : Nat}
    (hr : keep = true → data ≠ [] → representable now (ttl.getD dflt) = true) (c : Cid) (m : Msg) :
    (answer dflt (boot db t0 u0) h (.publish topic data keep ttl now unixNow)).reached c m
      ↔ m = ⟨topic, data⟩ ∧ connected c h = true
        ∧ ∃ es, holdsRev c es h.reverse = true ∧ EMatch es (split topic) := by
  have hi := SubInv.of_run (dflt := dflt) (db := db) (t0 := t0) (u0 := u0) h hn
  obtain ⟨s', h1, h2, h3⟩ := publish_eq (s := (run dflt (boot db t0 u0) h).1) (topic := topic) (unixNow := unixNow)
    (routing_iff hr)
  have hi' : SubInv s' h.reverse := hi.congr h2 h3 rfl (fun _ => rfl) (fun _ _ => rfl)
  unfold Out.reached answer connected
  simp only [step]
  rw [h1, mem_deliver, hi'.reaches_iff]
  constructor
  · rintro ⟨rfl, hc, es, h4, h5⟩
    exact ⟨rfl, hc, es, (hi'.tree2 c es hc).1 h4, h5⟩
  · rintro ⟨rfl, hc, es, h4, h5⟩
    exact ⟨rfl, hc, es, (hi'.tree2 c es hc).2 h4, h5⟩

/-- C13: a publish reaches a client exactly if it is connected and holds a subscription whose pattern matches the
topic.  (`hr`: a retained publish must not ask for a time to live beyond the clock's range.) -/
theorem C13_publish (dflt : Nat) (db : List Row) (t0 u0 : Nat) (h : List Op) (hn : (connects h).Nodup)
    (hp : ∀ o ∈ h, o.proper = true) (topic : Str) (data : Bytes) (keep : Bool) (ttl : Option Nat)
    (now unixNow : Nat) (hr : keep = true → data ≠ [] → representable now (ttl.getD dflt) = true)
    (c : Cid) (m : Msg) :
    (answer dflt (boot db t0 u0) h (.publish topic data keep ttl now unixNow)).reached c m
      ↔ m = ⟨topic, data⟩ ∧ connected c h = true
        ∧ ∃ p, subscribed c p h = true ∧ Matches (split p) (split topic) := by
  have hp' : Proper h.reverse := fun o ho => hp o (List.mem_reverse.1 ho)
  rw [publish_sent hn hr]
  constructor
  · rintro ⟨h1, h2, es, h3, h4⟩
    obtain ⟨p, h5, rfl, h6⟩ := (holds_iff hp').1 h3
    exact ⟨h1, h2, p, h6, (ematch_edges h5).1 h4⟩
  · rintro ⟨h1, h2, p, h3, h4⟩
    have h5 := subscribed_proper hp' h3
    exact ⟨h1, h2, _, (holds_iff hp').2 ⟨p, h5, rfl, h3⟩, (ematch_edges h5).2 h4⟩

/-- The history used in the examples: client 1 subscribes to `a/+` and `a/#`, client 2 to `b`. -/
def exH : List Op :=
  [.connect 1, .connect 2, .subscribe 1 [97, 47, 43] [] 0, .subscribe 1 [97, 47, 35] [] 0, .subscribe 2 [98] [] 0]

example : (connects exH).Nodup ∧ ∀ o ∈ exH, o.proper = true := by decide
example : (answer 60 (boot [] 0 0) exH (.publish [97, 47, 120] [1] false none 5 5)).sent = [(1, ⟨[97, 47, 120], [1]⟩)] := by
  decide
example : (answer 60 (boot [] 0 0) exH (.publish [97] [1] false none 5 5)).sent = [(1, ⟨[97], [1]⟩)] := by decide
example : (answer 60 (boot [] 0 0) exH (.publish [97, 47, 120, 47, 121] [1] false none 5 5)).sent
    = [(1, ⟨[97, 47, 120, 47, 121], [1]⟩)] := by decide
example : (answer 60 (boot [] 0 0) exH (.publish [99] [1] false none 5 5)).sent = [] := by decide

/-- C14: one publish sends no client two copies, and returns the number of clients served. -/
theorem C14_one_copy (dflt : Nat) (db : List Row) (t0 u0 : Nat) (h : List Op)
    (topic : Str) (data : Bytes) (keep : Bool) (ttl : Option Nat) (now unixNow : Nat) :
    let o := answer dflt (boot db t0 u0) h (.publish topic data keep ttl now unixNow)
    (o.sent.map (·.1)).Nodup ∧ o.count = o.sent.length := by
  intro o
  show (((publish _ _ _ _ _ _ _ _).2.sent).map _).Nodup ∧ (publish _ _ _ _ _ _ _ _).2.count = (publish _ _ _ _ _ _ _ _).2.sent.length
  cases hr : reachesRouting dflt data keep ttl now with
  | false => rw [publish_panics hr]; simp
  | true =>
    obtain ⟨s', h1, _, _⟩ := publish_eq (s := (run dflt (boot db t0 u0) h).1) (topic := topic) (unixNow := unixNow) hr
    rw [h1]
    exact ⟨deliver_nodup _ _ _, deliver_count _ _ _⟩

example : (answer 60 (boot [] 0 0) exH (.publish [97, 47, 120] [1] false none 5 5)).count = 1 := by decide

/-- C14, with C13: the count is the number of connected clients with a matching subscription. -/
theorem C14_count (dflt : Nat) (db : List Row) (t0 u0 : Nat) (h : List Op) (hn : (connects h).Nodup)
    (hp : ∀ o ∈ h, o.proper = true) (topic : Str) (data : Bytes) (keep : Bool) (ttl : Option Nat)
    (now unixNow : Nat) (hr : keep = true → data ≠ [] → representable now (ttl.getD dflt) = true)
    (cs : List Cid) (hcs : cs.Nodup)
    (hm : ∀ c, c ∈ cs ↔ connected c h = true ∧ ∃ p, subscribed c p h = true ∧ Matches (split p) (split topic)) :
    (answer dflt (boot db t0 u0) h (.publish topic data keep ttl now unixNow)).count = cs.length := by
  have h1 := C13_publish dflt db t0 u0 h hn hp topic data keep ttl now unixNow hr
  obtain ⟨h2, h3⟩ := C14_one_copy dflt db t0 u0 h topic data keep ttl now unixNow
  generalize answer dflt (boot db t0 u0) h (.publish topic data keep ttl now unixNow) = o at *
  rw [h3, ← List.length_map (f := (·.1))]
  apply List.Perm.length_eq
  rw [List.perm_ext_iff_of_nodup h2 hcs]
  intro c
  rw [hm]
  constructor
  · intro hc
    obtain ⟨⟨c', m⟩, h4, rfl⟩ := List.mem_map.1 hc
    exact ((h1 c' m).1 h4).2
  · intro hc
    exact List.mem_map.2 ⟨(c, ⟨topic, data⟩), (h1 c _).2 ⟨rfl, hc⟩, rfl⟩

/-- The publish request of the theorems below. -/
abbrev Pub (topic : Str) (data : Bytes) (now unixNow : Nat) : Op := .publish topic data false none now unixNow

theorem no_retain {dflt : Nat} {data : Bytes} {now : Nat} :
    (false : Bool) = true → data ≠ [] → representable now ((none : Option Nat).getD dflt) = true := fun h => nomatch h

/-- C15: after an unsubscribe, and as long as the client does not subscribe to that pattern again, whatever
reaches it does so because of another pattern. -/
theorem C15_gone (dflt : Nat) (db : List Row) (t0 u0 : Nat) (h g : List Op) (c : Cid) (p : Str)
    (hn : (connects (h ++ .unsubscribe c p :: g)).Nodup) (hp : ∀ o ∈ h ++ .unsubscribe c p :: g, o.proper = true)
    (hg : ∀ o n, .subscribe c p o n ∉ g) (topic : Str) (data : Bytes) (now unixNow : Nat) (m : Msg)
    (hm : (answer dflt (boot db t0 u0) (h ++ .unsubscribe c p :: g) (Pub topic data now unixNow)).reached c m) :
    ∃ q, q ≠ p ∧ subscribed c q (h ++ .unsubscribe c p :: g) = true ∧ Matches (split q) (split topic) := by
  rw [C13_publish _ _ _ _ _ hn hp _ _ _ _ _ _ no_retain] at hm
  obtain ⟨_, _, q, h1, h2⟩ := hm
  refine ⟨q, ?_, h1, h2⟩
  rintro rfl
  unfold subscribed at h1
  rw [List.reverse_append, List.reverse_cons, List.append_assoc] at h1
  have := subscribedRev_gone (c := c) (p := q) (g := g.reverse) (h := h.reverse)
    (fun o n hm => hg o n (List.mem_reverse.1 hm))
  rw [← List.singleton_append] at this
  rw [this] at h1
  cases h1

/-- Non-vacuity: client 1 leaves `a/#` and still gets `a/x` through `a/+`, but no longer `a`. -/
example : (answer 60 (boot [] 0 0) (exH ++ [.unsubscribe 1 [97, 47, 35]]) (Pub [97, 47, 120] [1] 5 5)).sent
      = [(1, ⟨[97, 47, 120], [1]⟩)]
    ∧ (answer 60 (boot [] 0 0) (exH ++ [.unsubscribe 1 [97, 47, 35]]) (Pub [97] [1] 5 5)).sent = [] := by decide

/-- The subscriptions after an unsubscribe are those before, but for the one named. -/
theorem subscribed_unsub {c c' : Cid} {p q : Str} {h g : List Op} (hne : ¬ (c = c' ∧ p = q)) :
    subscribed c' q (h ++ .unsubscribe c p :: g) = subscribed c' q (h ++ g) := by
  unfold subscribed
  rw [List.reverse_append, List.reverse_cons, List.append_assoc, List.reverse_append]
  exact subscribedRev_unsub hne g.reverse h.reverse

theorem connected_unsub {c c' : Cid} {p : Str} {h g : List Op} :
    connected c' (h ++ .unsubscribe c p :: g) = connected c' (h ++ g) := by
  unfold connected
  rw [List.reverse_append, List.reverse_cons, List.append_assoc, List.reverse_append]
  exact connectedRev_unsub g.reverse h.reverse

theorem nodup_remove {h g : List Op} {o : Op} (hn : (connects (h ++ o :: g)).Nodup) : (connects (h ++ g)).Nodup := by
  rw [connects_append] at hn ⊢
  refine hn.sublist (List.Sublist.append_left ?_ _)
  cases o <;> simp [connects]

theorem proper_remove {h g : List Op} {o : Op} (hp : ∀ x ∈ h ++ o :: g, x.proper = true) :
    ∀ x ∈ h ++ g, x.proper = true := by
  intro x hx
  apply hp
  rcases List.mem_append.1 hx with hx | hx
  · exact List.mem_append_left _ hx
  · exact List.mem_append_right _ (List.mem_cons_of_mem _ hx)

/-- C15: whatever the other subscriptions of the client, and every other client, would have received without
the unsubscribe is still received, however the history continues. -/
theorem C15_others (dflt : Nat) (db : List Row) (t0 u0 : Nat) (h g : List Op) (c : Cid) (p : Str)
    (hn : (connects (h ++ .unsubscribe c p :: g)).Nodup) (hp : ∀ o ∈ h ++ .unsubscribe c p :: g, o.proper = true)
    (topic : Str) (data : Bytes) (now unixNow : Nat) (c' : Cid) (m : Msg) :
    (c' ≠ c →
      ((answer dflt (boot db t0 u0) (h ++ .unsubscribe c p :: g) (Pub topic data now unixNow)).reached c' m
        ↔ (answer dflt (boot db t0 u0) (h ++ g) (Pub topic data now unixNow)).reached c' m))
    ∧ ((∃ q, q ≠ p ∧ subscribed c q (h ++ g) = true ∧ Matches (split q) (split topic)) → connected c (h ++ g) = true →
        (answer dflt (boot db t0 u0) (h ++ .unsubscribe c p :: g) (Pub topic data now unixNow)).reached c ⟨topic, data⟩) := by
  constructor
  · intro hne
    rw [C13_publish _ _ _ _ _ hn hp _ _ _ _ _ _ no_retain,
      C13_publish _ _ _ _ _ (nodup_remove hn) (proper_remove hp) _ _ _ _ _ _ no_retain, connected_unsub]
    have : ∀ q, subscribed c' q (h ++ .unsubscribe c p :: g) = subscribed c' q (h ++ g) :=
      fun q => subscribed_unsub (fun h => hne h.1.symm)
    simp only [this]
  · rintro ⟨q, h1, h2, h3⟩ hc
    rw [C13_publish _ _ _ _ _ hn hp _ _ _ _ _ _ no_retain]
    refine ⟨rfl, connected_unsub.trans hc, q, ?_, h3⟩
    rw [subscribed_unsub (fun h => h1 h.2.symm)]
    exact h2

/-- The code treats `a/#/b` as `a/#`: unsubscribing from the one removes the other.  (Outside the property's
quantifier, which is about patterns whose `#` is last.) -/
theorem C15_inner_hash_aliased :
    ∃ h c p q topic, p ≠ q ∧ subscribed c p (h ++ [.unsubscribe c q]) = true ∧ Matches (split p) (split topic)
      ∧ (answer 60 (boot [] 0 0) h (Pub topic [1] 5 5)).sent = [(c, ⟨topic, [1]⟩)]
      ∧ (answer 60 (boot [] 0 0) (h ++ [.unsubscribe c q]) (Pub topic [1] 5 5)).sent = [] :=
  ⟨[.connect 1, .subscribe 1 [97, 47, 35] [] 0], 1, [97, 47, 35], [97, 47, 35, 47, 98], [97, 47, 120],
    by decide, by decide, .level (by decide) (by decide) .hash, by decide, by decide⟩

theorem connected_disc {c c' : Cid} {h g : List Op} (hne : c' ≠ c) :
    connected c' (h ++ .disconnect c :: g) = connected c' (h ++ g) := by
  unfold connected
  rw [List.reverse_append, List.reverse_cons, List.append_assoc, List.reverse_append]
  exact connectedRev_skip (by simp [Op.about, hne.symm]) g.reverse h.reverse

theorem subscribed_disc {c c' : Cid} {q : Str} {h g : List Op} (hne : c' ≠ c) :
    subscribed c' q (h ++ .disconnect c :: g) = subscribed c' q (h ++ g) := by
  unfold subscribed
  rw [List.reverse_append, List.reverse_cons, List.append_assoc, List.reverse_append]
  exact subscribedRev_skip (by simp [Op.about, hne.symm]) g.reverse h.reverse

theorem not_connected_after {c : Cid} {h g : List Op} (hn : (connects (h ++ .disconnect c :: g)).Nodup)
    (hc : c ∈ connects h) : connected c (h ++ .disconnect c :: g) = false := by
  unfold connected
  rw [List.reverse_append, List.reverse_cons, List.append_assoc]
  apply connectedRev_gone
  · have h2 := (List.reverse_perm (connects (h ++ .disconnect c :: g))).nodup_iff.2 hn
    rw [← connects_reverse, List.reverse_append, List.reverse_cons, List.append_assoc] at h2
    exact h2
  · show c ∈ connects h.reverse
    rw [connects_reverse]; exact List.mem_reverse.2 hc

/-- C16: after a client has disconnected, no operation whatsoever sends it anything. -/
theorem C16_never (dflt : Nat) (db : List Row) (t0 u0 : Nat) (h g : List Op) (c : Cid)
    (hn : (connects (h ++ .disconnect c :: g)).Nodup) (hc : c ∈ connects h) (op : Op) (m : Msg) :
    ¬ (answer dflt (boot db t0 u0) (h ++ .disconnect c :: g) op).reached c m := by
  have hi := SubInv.of_run (dflt := dflt) (db := db) (t0 := t0) (u0 := u0) _ hn
  have hd : connectedRev c (h ++ Op.disconnect c :: g).reverse = false := not_connected_after hn hc
  unfold Out.reached answer
  generalize (run dflt (boot db t0 u0) (h ++ Op.disconnect c :: g)).1 = s at *
  intro hm
  cases op with
  | publish topic data keep ttl now unixNow =>
    simp only [step] at hm
    cases hr : reachesRouting dflt data keep ttl now with
    | false => rw [publish_panics hr] at hm; cases hm
    | true =>
      obtain ⟨s', h1, h2, h3⟩ := publish_eq (s := s) (topic := topic) (unixNow := unixNow) hr
      have hi' : SubInv s' (h ++ Op.disconnect c :: g).reverse := hi.congr h2 h3 rfl (fun _ => rfl) (fun _ _ => rfl)
      rw [h1, mem_deliver, hi'.reaches_iff, hd] at hm
      cases hm.2.1
  | subscribe c' p order now =>
    simp only [step, subscribe] at hm
    split at hm
    · cases hm
    · next info hg =>
      simp only at hm
      split at hm
      · next ha =>
        obtain ⟨_, _, h2⟩ := List.mem_map.1 hm
        cases h2
        rw [(hi.reg _ _ hg).2, hd] at ha
        cases ha
      · cases hm
  | flush now ok => simp only [step] at hm; split at hm <;> cases hm
  | connect c' => cases hm
  | drop c' => cases hm
  | disconnect c' => cases hm
  | unsubscribe c' p => cases hm
  | cleanup now => cases hm

/-- C16: every other client receives exactly what it would have received without the disconnect, however the
history continues. -/
theorem C16_others (dflt : Nat) (db : List Row) (t0 u0 : Nat) (h g : List Op) (c : Cid)
    (hn : (connects (h ++ .disconnect c :: g)).Nodup) (hp : ∀ o ∈ h ++ .disconnect c :: g, o.proper = true)
    (topic : Str) (data : Bytes) (now unixNow : Nat) (c' : Cid) (hne : c' ≠ c) (m : Msg) :
    (answer dflt (boot db t0 u0) (h ++ .disconnect c :: g) (Pub topic data now unixNow)).reached c' m
      ↔ (answer dflt (boot db t0 u0) (h ++ g) (Pub topic data now unixNow)).reached c' m := by
  rw [C13_publish _ _ _ _ _ hn hp _ _ _ _ _ _ no_retain,
    C13_publish _ _ _ _ _ (nodup_remove hn) (proper_remove hp) _ _ _ _ _ _ no_retain, connected_disc hne]
  simp only [subscribed_disc hne]

example : (answer 60 (boot [] 0 0) (exH ++ [.disconnect 1]) (Pub [97, 47, 120] [1] 5 5)).sent = []
    ∧ (answer 60 (boot [] 0 0) (exH ++ [.disconnect 1]) (Pub [98] [1] 5 5)).sent = [(2, ⟨[98], [1]⟩)] := by decide

/-- C17: for every pattern (proper or not) and topic, the client library calls the callback of the pattern for
the topic exactly if the server sends the topic to a client that holds this one subscription. -/
theorem C17_agrees (dflt : Nat) (db : List Row) (t0 u0 : Nat) (c : Cid) (p topic : Str) (data : Bytes)
    (t now unixNow : Nat) :
    Sdk.accepts p topic = true
      ↔ (answer dflt (boot db t0 u0) [.connect c, .subscribe c p [] t] (Pub topic data now unixNow)).reached c ⟨topic, data⟩ := by
  rw [publish_sent (by simp [connects]) no_retain, Sdk.accepts_iff]
  have hc : connected c [.connect c, .subscribe c p [] t] = true := by simp [connected, connectedRev]
  have hh : ∀ es, holdsRev c es ([.connect c, .subscribe c p [] t] : List Op).reverse = true ↔ edges (split p) = es := by
    intro es; simp [holdsRev, connectedRev]
  constructor
  · intro hm; exact ⟨rfl, hc, _, (hh _).2 rfl, hm⟩
  · rintro ⟨_, _, es, h1, h2⟩; rw [(hh es).1 h1]; exact h2

/-- C17: the callbacks called for a topic are, once each, exactly those registered whose pattern accepts it; for
proper patterns accepting is matching. -/
theorem C17_dispatch (l : List Sdk.Call) (topic : Str) :
    let fired := (Sdk.Client.run {} l).dispatch topic
    fired.Nodup ∧ (∀ p, p ∈ fired ↔ Sdk.held p l = true ∧ Sdk.accepts p topic = true)
      ∧ ∀ p, hashLast (split p) = true → (Sdk.accepts p topic = true ↔ Matches (split p) (split topic)) := by
  intro fired
  have hi := Sdk.ClientInv.of_run l
  refine ⟨?_, ?_, fun p hp => Sdk.accepts_matches hp⟩
  · show ((Sdk.Client.run {} l).dispatch topic).Nodup
    unfold Sdk.Client.dispatch
    rw [List.nodup_append]
    refine ⟨by split <;> simp, hi.nodup.sublist List.filter_sublist, ?_⟩
    rintro a ha b hb rfl
    split at ha
    · next hex =>
      rw [List.mem_singleton] at ha
      subst ha
      have h1 := ((hi.ex a).1 hex).2
      have h2 := ((hi.wi a).1 (List.mem_filter.1 hb).1).2
      rw [h1] at h2; cases h2
    · cases ha
  · intro p
    show p ∈ (Sdk.Client.run {} l).dispatch topic ↔ _
    unfold Sdk.Client.dispatch Sdk.held Sdk.accepts
    rw [List.mem_append, List.mem_filter, hi.wi]
    constructor
    · rintro (h1 | ⟨⟨h1, h2⟩, h3⟩)
      · split at h1
        · next hex =>
          rw [List.mem_singleton] at h1
          subst h1
          obtain ⟨h2, h3⟩ := (hi.ex p).1 hex
          exact ⟨h2, by simp [h3]⟩
        · cases h1
      · exact ⟨h1, by rw [if_pos h2]; exact h3⟩
    · rintro ⟨h1, h2⟩
      split at h2
      · next hw => exact Or.inr ⟨⟨h1, hw⟩, h2⟩
      · next hw =>
        have hpt : p = topic := of_decide_eq_true h2
        subst hpt
        rw [if_pos ((hi.ex p).2 ⟨h1, Bool.not_eq_true _ ▸ hw⟩)]
        exact Or.inl (List.mem_singleton.2 rfl)

example : (Sdk.Client.run {} [.subscribe [97], .subscribe [97, 47, 35], .subscribe [43], .subscribe [98],
    .unsubscribe [98]]).dispatch [97] = [[97], [97, 47, 35], [43]] := by decide

/-! ### Retained values -/

theorem entries_topic {dflt : Nat} {base : Str → Option Kept} {t : Nat} {s : State} {h : List Op}
    (hi : RetInv dflt base t s h) {e : List Str × Retained} (he : e ∈ entries s.tree) :
    e.1 = split (joinL e.1) ∧ keptRev dflt base (joinL e.1) h = some e.2.kept := by
  obtain ⟨topic, h1, h2⟩ := hi.sound e.1 e.2 ((mem_entries hi.wf).1 he)
  rw [h1, joinL_split]
  exact ⟨rfl, h2⟩

/-- What a new subscription is sent, topic by topic, with the labels the code gives. -/
theorem subscription_sent {dflt : Nat} {db : List Row} (hdb : (db.map (·.1)).Nodup) {t0 u0 : Nat} {h : List Op}
    {c : Cid} {p : Str} {order : List Msg} {now : Nat} (hv : Valid t0 (h ++ [.subscribe c p order now]))
    (hc : connected c h = true) :
    ∃ ts : List Str, ts.Nodup
      ∧ (∀ topic, topic ∈ ts ↔ matchB (split p) (split topic) = true
          ∧ ∃ k, kept dflt (baseOf db t0 u0) topic h = some k ∧ k.live now = true)
      ∧ (answer dflt (boot db t0 u0) h (.subscribe c p order now)).sent.Perm
          (ts.map (fun topic => (c, ⟨topic.dropWhile (· == slash),
            ((kept dflt (baseOf db t0 u0) topic h).map (·.data)).getD []⟩))) := by
  obtain ⟨hv1, hv2⟩ := hv.init
  have hs := SubInv.of_run (dflt := dflt) (db := db) (t0 := t0) (u0 := u0) h hv1.fresh
  have hr := (RetInv.of_run (dflt := dflt) (u0 := u0) hdb h hv1).later hv2
  simp only [Op.time, Option.getD_some] at hr
  have hperm := subscribe_sent (dflt := dflt) (p := p) (order := order) (now := now) hs hr.wf hc
  unfold answer
  generalize (run dflt (boot db t0 u0) h).1 = s at *
  have hi' : RetInv dflt (baseOf db t0 u0) now { s with tree := insertSub c (split p) s.tree } h.reverse :=
    hr.congr hr.wf.insert (fun _ => retAt_insert) (fun _ => rfl)
  let L := (entries (insertSub c (split p) s.tree)).filter (fun e => matchB (split p) e.1 && !e.2.expired now)
  have hL : ∀ e ∈ L, e.1 = split (joinL e.1) ∧ keptRev dflt (baseOf db t0 u0) (joinL e.1) h.reverse = some e.2.kept :=
    fun e he => entries_topic hi' (List.mem_filter.1 he).1
  refine ⟨L.map (fun e => joinL e.1), ?_, ?_, ?_⟩
  · have h1 : (L.map (·.1)).Nodup := (entries_nodup hr.wf.insert).sublist (List.filter_sublist.map _)
    rw [List.nodup_iff_pairwise_ne, List.pairwise_map] at h1 ⊢
    refine h1.imp_of_mem ?_
    intro a b ha hb hne heq
    exact hne (by rw [(hL a ha).1, (hL b hb).1, heq])
  · intro topic
    rw [List.mem_map]
    constructor
    · rintro ⟨e, he, rfl⟩
      obtain ⟨h1, h2⟩ := hL e he
      have h3 := (List.mem_filter.1 he).2
      rw [Bool.and_eq_true] at h3
      refine ⟨h1 ▸ h3.1, _, h2, ?_⟩
      rw [kept_live]; exact h3.2
    · rintro ⟨h1, k, h2, h3⟩
      rcases hi'.complete topic k h2 with ⟨r, h4, h5⟩ | ⟨_, h5⟩
      · refine ⟨(split topic, r), List.mem_filter.2 ⟨(mem_entries hr.wf.insert).2 h4, ?_⟩, joinL_split topic⟩
        rw [Bool.and_eq_true]
        refine ⟨h1, ?_⟩
        rw [← kept_live, h5]; exact h3
      · rw [h5] at h3; cases h3
  · refine hperm.trans (List.Perm.of_eq ?_)
    rw [List.map_map]
    apply List.map_congr_left
    intro e he
    obtain ⟨h1, h2⟩ := hL e he
    have hk : kept dflt (baseOf db t0 u0) (joinL e.1) h = some e.2.kept := h2
    simp only [Function.comp, hk, Option.map_some, Option.getD_some, Retained.kept]
    rw [h1, pathOf_split, stripLabel_dropWhile, joinL_split]

/-- The topic does not begin with a separator. -/
def plainTopic (s : Str) : Bool := decide (s.head? ≠ some slash)

theorem plain_label {s : Str} (h : plainTopic s = true) : s.dropWhile (· == slash) = s := by
  cases s with
  | nil => rfl
  | cons c t =>
    simp only [plainTopic, List.head?_cons, ne_eq, Option.some.injEq, decide_eq_true_eq] at h
    rw [List.dropWhile_cons]; simp [h]

/-- All topics of retained publishes, and all topics in the database at the start, are plain. -/
structure PlainTopics (db : List Row) (h : List Op) : Prop where
  rows : ∀ r ∈ db, plainTopic r.1 = true
  ops : ∀ topic data ttl now unixNow, .publish topic data true ttl now unixNow ∈ h → plainTopic topic = true

theorem kept_plain {dflt : Nat} {db : List Row} {t0 u0 : Nat} {h : List Op} (hp : PlainTopics db h) {topic : Str}
    {k : Kept} (hk : kept dflt (baseOf db t0 u0) topic h = some k) : plainTopic topic = true := by
  have : ∀ l : List Op, (∀ d ttl now unixNow, .publish topic d true ttl now unixNow ∈ l → plainTopic topic = true) →
      keptRev dflt (baseOf db t0 u0) topic l = some k → plainTopic topic = true := by
    intro l
    induction l with
    | nil =>
      intro _ h
      simp only [keptRev, baseOf] at h
      cases hm : mget db topic with
      | none => rw [hm] at h; cases h
      | some v => exact hp.rows _ (mget_some_mem hm)
    | cons o l ih =>
      intro hl h
      cases o with
      | publish topic' d keep ttl now unixNow =>
        cases keep with
        | false => exact ih (fun a b c e hm => hl a b c e (List.mem_cons_of_mem _ hm)) h
        | true =>
          by_cases ht : topic' = topic
          · subst ht; exact hl _ _ _ _ (List.mem_cons_self ..)
          · simp only [keptRev, if_neg ht] at h
            exact ih (fun a b c e hm => hl a b c e (List.mem_cons_of_mem _ hm)) h
      | _ => exact ih (fun a b c e hm => hl a b c e (List.mem_cons_of_mem _ hm)) h
  exact this h.reverse (fun d ttl now unixNow hm => hp.ops _ _ _ _ _ (List.mem_reverse.1 hm)) hk

/-- C18 (part): if no retained topic begins with `/`, a new subscription is sent, once each, exactly the latest
retained, non-empty, unexpired values of the matching topics, labelled with their topics.  Missing: topics that
begin with `/` (`C18_violated`). -/
theorem C18_retained_partial (dflt : Nat) (db : List Row) (hdb : (db.map (·.1)).Nodup) (t0 u0 : Nat) (h : List Op)
    (c : Cid) (p : Str) (order : List Msg) (now : Nat) (hv : Valid t0 (h ++ [.subscribe c p order now]))
    (hpl : PlainTopics db h) (hp : hashLast (split p) = true) (hc : connected c h = true) :
    let o := answer dflt (boot db t0 u0) h (.subscribe c p order now)
    (o.sent.map (fun e => e.2.topic)).Nodup
    ∧ ∀ c' m, o.reached c' m ↔ c' = c ∧ Matches (split p) (split m.topic)
        ∧ ∃ k, kept dflt (baseOf db t0 u0) m.topic h = some k ∧ k.live now = true ∧ m.payload = k.data := by
  intro o
  obtain ⟨ts, h1, h2, h3⟩ := subscription_sent hdb hv hc
  have hlab : ∀ topic ∈ ts, topic.dropWhile (· == slash) = topic := by
    intro topic ht
    obtain ⟨_, k, hk, _⟩ := (h2 topic).1 ht
    exact plain_label (kept_plain hpl hk)
  constructor
  · have := h3.map (fun e => e.2.topic)
    rw [this.nodup_iff, List.map_map]
    have : (ts.map ((fun e : Cid × Msg => e.2.topic) ∘ fun topic => (c, (⟨topic.dropWhile (· == slash),
        ((kept dflt (baseOf db t0 u0) topic h).map (·.data)).getD []⟩ : Msg)))) = ts := by
      conv => rhs; rw [← List.map_id ts]
      apply List.map_congr_left
      intro topic ht
      exact hlab topic ht
    rw [this]
    exact h1
  · intro c' m
    show (c', m) ∈ (answer dflt (boot db t0 u0) h (.subscribe c p order now)).sent ↔ _
    rw [h3.mem_iff, List.mem_map]
    constructor
    · rintro ⟨topic, ht, heq⟩
      obtain ⟨h4, k, h5, h6⟩ := (h2 topic).1 ht
      rw [hlab topic ht, h5] at heq
      cases heq
      exact ⟨rfl, (matchB_iff hp).1 h4, k, h5, h6, rfl⟩
    · rintro ⟨rfl, h4, k, h5, h6, h7⟩
      have ht := (h2 m.topic).2 ⟨(matchB_iff hp).2 h4, k, h5, h6⟩
      refine ⟨m.topic, ht, ?_⟩
      rw [hlab _ ht, h5]
      cases m
      simp only at h7
      rw [h7]; rfl

/-- A history with retained values: `a/x` twice (the second counts), `b` cleared, `c` with one second to live. -/
def exR : List Op :=
  [.connect 1, .publish [97, 47, 120] [1] true none 0 0, .publish [97, 47, 120] [2] true none 1 0,
   .publish [98] [3] true none 2 0, .publish [98] [] true none 3 0, .publish [99] [4] true (some 1) 4 0]

example : Valid 0 (exR ++ [.subscribe 1 [35] [] 5]) ∧ PlainTopics [] exR ∧ connected 1 exR = true := by
  refine ⟨⟨by decide, by decide⟩, ⟨by simp, ?_⟩, by decide⟩
  intro topic data ttl now unixNow hm
  simp [exR] at hm
  rcases hm with ⟨rfl, _⟩ | ⟨rfl, _⟩ | ⟨rfl, _⟩ | ⟨rfl, _⟩ | ⟨rfl, _⟩ <;> decide
example : (answer 60 (boot [] 0 0) exR (.subscribe 1 [35] [] 5)).sent = [(1, ⟨[97, 47, 120], [2]⟩), (1, ⟨[99], [4]⟩)] := by
  decide
example : (answer 60 (boot [] 0 0) exR (.subscribe 1 [35] [] 2000000000)).sent = [(1, ⟨[97, 47, 120], [2]⟩)] := by
  decide

/-- C18 is violated for topics that begin with `/`: the value retained for `/a` is announced as `a`, also to a
subscriber of `/+`, which does not match `a`. -/
theorem C18_violated :
    ∃ h c p topic data, Valid 0 (h ++ [.subscribe c p [] 5]) ∧ connected c h = true
      ∧ (∃ k, kept 60 (fun _ => none) topic h = some k ∧ k.live 5 = true ∧ k.data = data)
      ∧ Matches (split p) (split topic)
      ∧ (answer 60 (boot [] 0 0) h (.subscribe c p [] 5)).sent = [(c, ⟨[97], data⟩)]
      ∧ topic ≠ [97] ∧ ¬ Matches (split p) (split [97]) := by
  refine ⟨[.connect 1, .publish [47, 97] [1] true none 0 0], 1, [47, 43], [47, 97], [1], ⟨by decide, by decide⟩,
    by decide, ⟨_, rfl, by decide, rfl⟩, .level (by decide) (by decide) (.plus .done), by decide, by decide, ?_⟩
  intro hm
  rw [← matchB_iff (by decide)] at hm
  revert hm
  decide

theorem kept_append {dflt : Nat} {base : Str → Option Kept} {topic : Str} {h : List Op} {o : Op} {g : List Op} :
    kept dflt base topic (h ++ o :: g) = keptRev dflt base topic (g.reverse ++ o :: h.reverse) := by
  unfold kept
  rw [List.reverse_append, List.reverse_cons, List.append_assoc]; rfl

/-- C19: after an empty retained publish on a topic, and until the next retained publish on it, no subscriber
is sent a value for that topic. -/
theorem C19_cleared_partial (dflt : Nat) (db : List Row) (hdb : (db.map (·.1)).Nodup) (t0 u0 : Nat) (h g : List Op)
    (topic : Str) (ttl : Option Nat) (tc uc : Nat) (c : Cid) (p : Str) (order : List Msg) (now : Nat)
    (hv : Valid t0 ((h ++ .publish topic [] true ttl tc uc :: g) ++ [.subscribe c p order now]))
    (hpl : PlainTopics db (h ++ .publish topic [] true ttl tc uc :: g)) (hp : hashLast (split p) = true)
    (hc : connected c (h ++ .publish topic [] true ttl tc uc :: g) = true)
    (hg : ∀ d t n u, .publish topic d true t n u ∉ g) (c' : Cid) (data : Bytes) :
    ¬ (answer dflt (boot db t0 u0) (h ++ .publish topic [] true ttl tc uc :: g) (.subscribe c p order now)).reached
        c' ⟨topic, data⟩ := by
  rw [(C18_retained_partial dflt db hdb t0 u0 _ c p order now hv hpl hp hc).2]
  rintro ⟨_, _, k, h1, _⟩
  rw [kept_append, keptRev_last (fun d t n u hm => hg d t n u (List.mem_reverse.1 hm))] at h1
  simp [keptRev] at h1

/-- C19: the other topics are sent exactly as if the empty publish had not happened. -/
theorem C19_others_partial (dflt : Nat) (db : List Row) (hdb : (db.map (·.1)).Nodup) (t0 u0 : Nat) (h g : List Op)
    (topic : Str) (ttl : Option Nat) (tc uc : Nat) (c : Cid) (p : Str) (order : List Msg) (now : Nat)
    (hv : Valid t0 ((h ++ .publish topic [] true ttl tc uc :: g) ++ [.subscribe c p order now]))
    (hpl : PlainTopics db (h ++ .publish topic [] true ttl tc uc :: g)) (hp : hashLast (split p) = true)
    (hc : connected c (h ++ .publish topic [] true ttl tc uc :: g) = true) (c' : Cid) (m : Msg) (hm : m.topic ≠ topic) :
    (answer dflt (boot db t0 u0) (h ++ .publish topic [] true ttl tc uc :: g) (.subscribe c p order now)).reached c' m
      ↔ (answer dflt (boot db t0 u0) (h ++ g) (.subscribe c p order now)).reached c' m := by
  have hv' : Valid t0 ((h ++ g) ++ [.subscribe c p order now]) := by
    rw [List.append_assoc, List.cons_append] at hv
    rw [List.append_assoc]
    exact hv.remove
  have hc' : connected c (h ++ g) = true := by
    rw [← hc]
    unfold connected
    rw [List.reverse_append, List.reverse_append, List.reverse_cons, List.append_assoc]
    exact (connectedRev_skip (by rfl) g.reverse h.reverse).symm
  have hpl' : PlainTopics db (h ++ g) := by
    refine ⟨hpl.rows, fun t d tt n u hm => hpl.ops t d tt n u ?_⟩
    rcases List.mem_append.1 hm with hm | hm
    · exact List.mem_append_left _ hm
    · exact List.mem_append_right _ (List.mem_cons_of_mem _ hm)
  rw [(C18_retained_partial dflt db hdb t0 u0 _ c p order now hv hpl hp hc).2,
    (C18_retained_partial dflt db hdb t0 u0 _ c p order now hv' hpl' hp hc').2]
  have : kept dflt (baseOf db t0 u0) m.topic (h ++ .publish topic [] true ttl tc uc :: g)
      = kept dflt (baseOf db t0 u0) m.topic (h ++ g) := by
    rw [kept_append, keptRev_other (fun h => hm h.symm)]
    unfold kept
    rw [List.reverse_append]
  rw [this]

/-- C19 without restriction on names: whether or not topics begin with `/`, clearing a topic removes one value and
leaves the others: the values sent are those sent without the clearing, minus the cleared topic's. -/
theorem C19_exact (dflt : Nat) (db : List Row) (hdb : (db.map (·.1)).Nodup) (t0 u0 : Nat) (h : List Op)
    (topic : Str) (ttl : Option Nat) (tc uc : Nat) (c : Cid) (p : Str) (order : List Msg) (now : Nat)
    (hv : Valid t0 ((h ++ [.publish topic [] true ttl tc uc]) ++ [.subscribe c p order now]))
    (hc : connected c h = true) :
    ∃ lost : List (Cid × Msg),
      (answer dflt (boot db t0 u0) h (.subscribe c p order now)).sent.Perm
        ((answer dflt (boot db t0 u0) (h ++ [.publish topic [] true ttl tc uc]) (.subscribe c p order now)).sent ++ lost)
      ∧ (lost = [] ∨ ∃ k, kept dflt (baseOf db t0 u0) topic h = some k ∧ k.live now = true ∧
          lost = [(c, ⟨topic.dropWhile (· == slash), k.data⟩)]) := by
  have hc' : connected c (h ++ [.publish topic [] true ttl tc uc]) = true := by
    unfold connected at hc ⊢
    rw [List.reverse_append]
    exact hc
  have hv' : Valid t0 (h ++ [.subscribe c p order now]) := by
    rw [List.append_assoc] at hv
    exact hv.remove
  obtain ⟨ts, h1, h2, h3⟩ := subscription_sent (dflt := dflt) (u0 := u0) hdb hv' hc
  obtain ⟨ts', h1', h2', h3'⟩ := subscription_sent (dflt := dflt) (u0 := u0) hdb hv hc'
  have hk : ∀ x, kept dflt (baseOf db t0 u0) x (h ++ [.publish topic [] true ttl tc uc])
      = if x = topic then none else kept dflt (baseOf db t0 u0) x h := by
    intro x
    unfold kept
    rw [List.reverse_append]
    simp only [List.reverse_cons, List.reverse_nil, List.nil_append, List.singleton_append, keptRev]
    by_cases hx : x = topic
    · subst hx; simp
    · rw [if_neg hx, if_neg (Ne.symm hx)]
  have hts' : ∀ x, x ∈ ts' ↔ x ∈ ts ∧ x ≠ topic := by
    intro x
    rw [h2', h2, hk]
    by_cases hx : x = topic
    · simp [hx]
    · simp [hx]
  have hperm : ts.Perm (ts' ++ ts.filter (fun x => decide (x = topic))) := by
    rw [List.perm_ext_iff_of_nodup h1]
    · intro x
      rw [List.mem_append, hts', List.mem_filter, decide_eq_true_eq]
      by_cases hx : x = topic
      · simp [hx]
      · simp [hx]
    · rw [List.nodup_append]
      refine ⟨h1', h1.sublist List.filter_sublist, ?_⟩
      rintro a ha b hb rfl
      have := (List.mem_filter.1 hb).2
      rw [decide_eq_true_eq] at this
      exact ((hts' a).1 ha).2 this
  refine ⟨(ts.filter (fun x => decide (x = topic))).map (fun topic => (c, ⟨topic.dropWhile (· == slash),
            ((kept dflt (baseOf db t0 u0) topic h).map (·.data)).getD []⟩)), ?_, ?_⟩
  · refine h3.trans ((hperm.map _).trans ?_)
    rw [List.map_append]
    apply List.Perm.append_right
    refine List.Perm.trans (List.Perm.of_eq ?_) h3'.symm
    apply List.map_congr_left
    intro x hx
    rw [hk, if_neg ((hts' x).1 hx).2]
  · by_cases ht : topic ∈ ts
    · right
      obtain ⟨_, k, h4, h5⟩ := (h2 topic).1 ht
      refine ⟨k, h4, h5, ?_⟩
      have : ts.filter (fun x => decide (x = topic)) = [topic] := by
        apply List.perm_singleton.1
        rw [List.perm_ext_iff_of_nodup (h1.sublist List.filter_sublist) (by simp)]
        intro x
        simp only [List.mem_filter, decide_eq_true_eq, List.mem_singleton]
        constructor
        · exact fun h => h.2
        · rintro rfl; exact ⟨ht, rfl⟩
      rw [this]
      simp [h4]
    · left
      have : ts.filter (fun x => decide (x = topic)) = [] := by
        rw [List.filter_eq_nil_iff]
        intro x hx
        simp only [decide_eq_true_eq]
        rintro rfl; exact ht hx
      rw [this]; rfl

example : (answer 60 (boot [] 0 0) (exR ++ [.publish [97, 47, 120] [] true none 4 0]) (.subscribe 1 [35] [] 5)).sent
    = [(1, ⟨[99], [4]⟩)] := by decide

/-- C20: a value retained with a time to live is sent to a matching new subscriber exactly while the time to
live has not elapsed, whatever else happens in between (in particular cleanups), until the topic's next retained
publish. -/
theorem C20_ttl_partial (dflt : Nat) (db : List Row) (hdb : (db.map (·.1)).Nodup) (t0 u0 : Nat) (h g : List Op)
    (topic : Str) (data : Bytes) (ttl : Option Nat) (tp up : Nat) (c : Cid) (p : Str) (order : List Msg) (now : Nat)
    (hv : Valid t0 ((h ++ .publish topic data true ttl tp up :: g) ++ [.subscribe c p order now]))
    (hpl : PlainTopics db (h ++ .publish topic data true ttl tp up :: g)) (hp : hashLast (split p) = true)
    (hc : connected c (h ++ .publish topic data true ttl tp up :: g) = true)
    (hd : data ≠ []) (hr : representable tp (ttl.getD dflt) = true)
    (hg : ∀ d t n u, .publish topic d true t n u ∉ g) (hm : Matches (split p) (split topic)) (d : Bytes) :
    (answer dflt (boot db t0 u0) (h ++ .publish topic data true ttl tp up :: g) (.subscribe c p order now)).reached
        c ⟨topic, d⟩ ↔ d = data ∧ now < tp + ttl.getD dflt * second := by
  rw [(C18_retained_partial dflt db hdb t0 u0 _ c p order now hv hpl hp hc).2]
  have hk : kept dflt (baseOf db t0 u0) topic (h ++ .publish topic data true ttl tp up :: g)
      = some ⟨data, some (tp + ttl.getD dflt * second), some (up + ttl.getD dflt)⟩ := by
    rw [kept_append, keptRev_last (fun d t n u hm => hg d t n u (List.mem_reverse.1 hm))]
    simp only [keptRev]
    rw [if_pos trivial, if_neg hd, if_pos hr]
  constructor
  · rintro ⟨_, _, k, h1, h2, h3⟩
    rw [hk] at h1
    cases h1
    exact ⟨h3, of_decide_eq_true h2⟩
  · rintro ⟨rfl, h2⟩
    exact ⟨rfl, hm, _, hk, decide_eq_true h2, rfl⟩

example : (answer 60 (boot [] 0 0) (exR ++ [.cleanup 1000000004]) (.subscribe 1 [99] [] 1000000004)).sent = []
    ∧ (answer 60 (boot [] 0 0) (exR ++ [.cleanup 1000000003]) (.subscribe 1 [99] [] 1000000003)).sent = [(1, ⟨[99], [4]⟩)] := by
  decide

/-- C20: removing all background cleanups from a history does not change what a subscriber is sent (up to the
order, which the hash maps decide). -/
theorem C20_cleanup_invisible (dflt : Nat) (db : List Row) (hdb : (db.map (·.1)).Nodup) (t0 u0 : Nat) (h : List Op)
    (c : Cid) (p : Str) (order order' : List Msg) (now : Nat) (hv : Valid t0 (h ++ [.subscribe c p order now]))
    (hc : connected c h = true) :
    let quiet := h.filter (fun o => match o with | .cleanup _ => false | _ => true)
    (answer dflt (boot db t0 u0) h (.subscribe c p order now)).sent.Perm
      (answer dflt (boot db t0 u0) quiet (.subscribe c p order' now)).sent := by
  intro quiet
  obtain ⟨ts, h1, h2, h3⟩ := subscription_sent (dflt := dflt) (u0 := u0) hdb hv hc
  have hq : ∀ o : Op, o.keeps = true → (match o with | .cleanup _ => false | _ => true) = true := by
    intro o ho; cases o <;> simp_all [Op.keeps]
  have hk : ∀ x, kept dflt (baseOf db t0 u0) x quiet = kept dflt (baseOf db t0 u0) x h := by
    intro x
    unfold kept
    rw [← List.filter_reverse]
    exact keptRev_filter hq h.reverse
  have hc' : connected c quiet = true := by
    unfold connected at hc ⊢
    rw [← List.filter_reverse, connectedRev_filter ?_ h.reverse]
    · exact hc
    · intro o ho; cases o <;> simp_all [Op.about]
  have hv' : Valid t0 (quiet ++ [.subscribe c p order' now]) := by
    obtain ⟨ha, hb⟩ := hv
    constructor
    · rw [connects_append] at ha ⊢
      exact ha.sublist (List.Sublist.append_right (connects_filter h) _)
    · rw [times_append] at hb ⊢
      exact hb.sublist ((List.Sublist.append_right (times_filter h) _).cons_cons _)
  obtain ⟨ts', h1', h2', h3'⟩ := subscription_sent (dflt := dflt) (u0 := u0) hdb hv' hc'
  refine h3.trans (List.Perm.trans ?_ h3'.symm)
  simp only [hk]
  apply List.Perm.map
  rw [List.perm_ext_iff_of_nodup h1 h1']
  intro x
  rw [h2, h2', hk]

/-! ### Restart -/

/-- Every flush the history contains succeeds. -/
def FlushesOk (h : List Op) : Prop := ∀ now, .flush now false ∉ h

/-- The database describes the retained values, as far as they are not expired. -/
structure Agree (dflt : Nat) (base : Str → Option Kept) (t : Nat) (db : List Row) (h : List Op) : Prop where
  sound : ∀ topic v, mget db topic = some v → ∃ k, keptRev dflt base topic h = some k ∧ v = (k.data, k.untilUnix)
  complete : ∀ topic k, keptRev dflt base topic h = some k → k.live t = true → mget db topic = some (k.data, k.untilUnix)

structure SyncInv (dflt : Nat) (base : Str → Option Kept) (t : Nat) (s : State) (h : List Op) : Prop where
  wf : MWF s.db
  plain : ∀ r ∈ s.db, plainTopic r.1 = true
  sync : s.dirty = false → Agree dflt base t s.db h

theorem SyncInv.same {dflt : Nat} {base : Str → Option Kept} {t t' : Nat} {s s' : State} {h h' : List Op}
    (hi : SyncInv dflt base t s h) (ht : t ≤ t') (hdb : s'.db = s.db) (hd : s'.dirty = false → s.dirty = false)
    (hk : s'.dirty = false → ∀ topic, keptRev dflt base topic h' = keptRev dflt base topic h) :
    SyncInv dflt base t' s' h' where
  wf := hdb ▸ hi.wf
  plain := hdb ▸ hi.plain
  sync h0 := by
    obtain ⟨h1, h2⟩ := hi.sync (hd h0)
    refine ⟨fun topic v hv => ?_, fun topic k hk' hl => ?_⟩
    · rw [hk h0]; exact h1 topic v (hdb ▸ hv)
    · rw [hk h0] at hk'
      rw [hdb]
      refine h2 topic k hk' ?_
      cases hb : k.live t with
      | true => rfl
      | false => rw [live_mono hb ht] at hl; cases hl

theorem disconnect_db (s : State) (c : Cid) : (disconnect s c).db = s.db ∧ (disconnect s c).dirty = s.dirty := by
  unfold disconnect; split <;> exact ⟨rfl, rfl⟩

/-- The rows of a flush, if all topics are plain. -/
theorem rows_spec {dflt : Nat} {base : Str → Option Kept} {t : Nat} {s : State} {h : List Op}
    (hi : RetInv dflt base t s h) (hp : ∀ topic k, keptRev dflt base topic h = some k → plainTopic topic = true) :
    MWF (rows t s.tree) ∧ (∀ r ∈ rows t s.tree, plainTopic r.1 = true) ∧ Agree dflt base t (rows t s.tree) h := by
  let L := (entries s.tree).filter (fun e => !e.2.expired t)
  have hL : ∀ e ∈ L, e.1 = split (joinL e.1) ∧ keptRev dflt base (joinL e.1) h = some e.2.kept
      ∧ pathOf [] e.1 = joinL e.1 ∧ plainTopic (joinL e.1) = true := by
    intro e he
    obtain ⟨h1, h2⟩ := entries_topic hi (List.mem_filter.1 he).1
    refine ⟨h1, h2, ?_, hp _ _ h2⟩
    conv => lhs; rw [h1]
    rw [pathOf_split, plain_label (hp _ _ h2)]
  have hrows : rows t s.tree = L.map (fun e => (joinL e.1, e.2.data, e.2.expiresUnix)) := by
    unfold rows
    rw [collectAll_eq, List.map_map]
    apply List.map_congr_left
    intro e he
    simp only [Function.comp, (hL e he).2.2.1]
  have hnd : MWF (rows t s.tree) := by
    show ((rows t s.tree).map (·.1)).Nodup
    rw [hrows, List.map_map]
    have h1 : (L.map (·.1)).Nodup := (entries_nodup hi.wf).sublist (List.filter_sublist.map _)
    rw [List.nodup_iff_pairwise_ne, List.pairwise_map] at h1 ⊢
    refine h1.imp_of_mem ?_
    intro a b ha hb hne heq
    exact hne (by rw [(hL a ha).1, (hL b hb).1]; exact congrArg split heq)
  refine ⟨hnd, ?_, ?_, ?_⟩
  · intro r hr
    rw [hrows] at hr
    obtain ⟨e, he, rfl⟩ := List.mem_map.1 hr
    exact (hL e he).2.2.2
  · intro topic v hv
    have hm := mget_some_mem hv
    rw [hrows] at hm
    obtain ⟨e, he, heq⟩ := List.mem_map.1 hm
    cases heq
    exact ⟨_, (hL e he).2.1, rfl⟩
  · intro topic k hk hl
    rcases hi.complete topic k hk with ⟨r, h1, rfl⟩ | ⟨_, h2⟩
    · apply (hnd.mem_iff).1
      rw [hrows]
      refine List.mem_map.2 ⟨(split topic, r), List.mem_filter.2 ⟨(mem_entries hi.wf).2 h1, ?_⟩, ?_⟩
      · rw [← kept_live]; exact hl
      · simp only [joinL_split]; rfl
    · rw [h2] at hl; cases hl

theorem SyncInv.step {dflt : Nat} {base : Str → Option Kept} {t : Nat} {s : State} {h : List Op}
    (hi : SyncInv dflt base t s h) (hr : RetInv dflt base t s h) (o : Op) (ht : t ≤ o.time.getD t)
    (hp : ∀ topic k, keptRev dflt base topic (o :: h) = some k → plainTopic topic = true)
    (ho : ∀ now, o ≠ .flush now false) :
    SyncInv dflt base (o.time.getD t) (PubSub.step dflt s o).1 (o :: h) := by
  cases o with
  | connect c => exact hi.same ht rfl id (fun _ _ => rfl)
  | drop c => exact hi.same ht rfl id (fun _ _ => rfl)
  | disconnect c =>
    obtain ⟨h1, h2⟩ := disconnect_db s c
    exact hi.same ht h1 (fun h => h2 ▸ h) (fun _ _ => rfl)
  | subscribe c p order now =>
    refine hi.same ht ?_ ?_ (fun _ _ => rfl)
    · simp only [PubSub.step, subscribe]; split <;> rfl
    · simp only [PubSub.step, subscribe]; split <;> exact id
  | unsubscribe c p => exact hi.same ht rfl id (fun _ _ => rfl)
  | publish topic data keep ttl now unixNow =>
    obtain ⟨_, _, h3, h4⟩ := publish_ret dflt s topic data keep ttl now unixNow
    refine hi.same ht h3 (fun h0 => ?_) (fun h0 x => ?_)
    · simp only [PubSub.step] at h0
      rw [h4, Bool.or_eq_false_iff] at h0
      exact h0.1
    · simp only [PubSub.step] at h0
      rw [h4, Bool.or_eq_false_iff] at h0
      cases keep with
      | false => rfl
      | true =>
        simp only [Bool.true_and, Bool.or_eq_false_iff] at h0
        have hd : data ≠ [] := by rintro rfl; cases h0.2.1
        simp only [keptRev, if_neg hd, h0.2.2, Bool.false_eq_true, if_false, ite_self]
  | cleanup now =>
    refine hi.same ht rfl (fun h0 => ?_) (fun _ _ => rfl)
    simp only [PubSub.step, Bool.or_eq_false_iff] at h0
    exact h0.1
  | flush now ok =>
    cases ok with
    | false => exact absurd rfl (ho now)
    | true =>
      simp only [PubSub.step]
      split
      · obtain ⟨h1, h2, h3⟩ := rows_spec (hr.later ht) hp
        simp only [Op.time, Option.getD_some] at h1 h2 h3
        have hf : flushRows s.db (rows now s.tree) true = rows now s.tree := by
          unfold flushRows
          rw [Bool.true_and]
          exact if_pos (decide_eq_true (show ((rows now s.tree).map (·.1)).Nodup from h1))
        exact ⟨by show MWF (flushRows _ _ _); rw [hf]; exact h1, by show ∀ r ∈ flushRows _ _ _, _; rw [hf]; exact h2,
          fun _ => by show Agree _ _ _ (flushRows _ _ _) _; rw [hf]; exact ⟨h3.sound, h3.complete⟩⟩
      · exact hi.same ht rfl id (fun _ _ => rfl)

theorem PlainTopics.init {db : List Row} {h : List Op} {o : Op} (hp : PlainTopics db (h ++ [o])) : PlainTopics db h :=
  ⟨hp.rows, fun t d tt n u hm => hp.ops t d tt n u (List.mem_append_left _ hm)⟩

theorem SyncInv.of_run {dflt : Nat} {db : List Row} (hn : MWF db) {t0 u0 : Nat} (h : List Op) (hv : Valid t0 h)
    (hp : PlainTopics db h) (hf : FlushesOk h) :
    SyncInv dflt (baseOf db t0 u0) (lastTime t0 h) (run dflt (boot db t0 u0) h).1 h.reverse := by
  rw [← List.reverse_reverse h] at hv hp hf ⊢
  generalize h.reverse = r at hv hp hf ⊢
  rw [List.reverse_reverse]
  induction r with
  | nil =>
    refine ⟨hn, hp.rows, fun _ => ⟨?_, ?_⟩⟩
    · rintro topic ⟨d, u⟩ hv
      have hv : mget db topic = some (d, u) := hv
      refine ⟨⟨d, match u with | some u => if u0 < u then some (t0 + (u - u0) * second) else none | none => none, u⟩, ?_, rfl⟩
      simp only [keptRev, baseOf, hv]
      cases u <;> rfl
    · intro topic k hk _
      show mget db topic = _
      simp only [keptRev, baseOf] at hk
      split at hk
      · next h => cases hk; exact h
      · next h => cases hk; exact h
      · cases hk
  | cons o r ih =>
    rw [List.reverse_cons] at hv hp hf ⊢
    obtain ⟨h1, h2⟩ := hv.init
    rw [run_snoc, lastTime_snoc]
    have hr := RetInv.of_run (dflt := dflt) (u0 := u0) hn _ h1
    rw [List.reverse_reverse] at hr
    refine (ih h1 hp.init (fun now hm => hf now (List.mem_append_left _ hm))).step hr o h2 ?_ ?_
    · intro topic k hk
      refine kept_plain hp (k := k) (dflt := dflt) (t0 := t0) (u0 := u0) ?_
      unfold kept
      rw [List.reverse_append, List.reverse_reverse]
      exact hk
    · rintro now rfl
      exact hf now (List.mem_append_right _ (List.mem_cons_self ..))

theorem db_quiet {dflt : Nat} (g : List Op) (s : State) (hg : ∀ now ok, .flush now ok ∉ g) :
    (run dflt s g).1.db = s.db := by
  induction g generalizing s with
  | nil => rfl
  | cons o g ih =>
    rw [run]
    simp only
    rw [ih _ (fun now ok hm => hg now ok (List.mem_cons_of_mem _ hm))]
    cases o with
    | flush now ok => exact absurd (List.mem_cons_self ..) (hg now ok)
    | subscribe c p order now => simp only [step, subscribe]; split <;> rfl
    | publish topic data keep ttl now unixNow => exact (publish_ret dflt s topic data keep ttl now unixNow).2.2.1
    | disconnect c => exact (disconnect_db s c).1
    | connect c => rfl
    | drop c => rfl
    | unsubscribe c p => rfl
    | cleanup now => rfl

/-- The database a server leaves behind. -/
def leftBehind (dflt : Nat) (db : List Row) (t0 u0 : Nat) (h : List Op) : List Row := (run dflt (boot db t0 u0) h).1.db

/-- C21 (part): a server runs, flushes at `tf`, does anything but flush, stops, and a new one starts on the
database at monotonic time `t1`, wall clock `u1`.  Then a value retained and live at the flush, whose deadline `u`
by the wall clock is still ahead, is sent to a new matching subscriber exactly until `u - u1` seconds after the
start; and whatever is sent was retained, with the same payload, at the flush.
Missing: topics beginning with `/`, values expired before the new start, failed flushes (the `C21_violated`
theorems). -/
theorem C21_restart_partial (dflt : Nat) (db : List Row) (hdb : (db.map (·.1)).Nodup) (t0 u0 : Nat) (h g : List Op)
    (tf : Nat) (hv : Valid t0 (h ++ [Op.flush tf true])) (hpl : PlainTopics db h) (hf : FlushesOk h)
    (hg : ∀ now ok, .flush now ok ∉ g) (t1 u1 : Nat) (c : Cid) (p : Str) (hp : hashLast (split p) = true)
    (order : List Msg) (now : Nat) (hnow : t1 ≤ now) (topic : Str) (hm : Matches (split p) (split topic)) (data : Bytes) :
    let o := answer dflt (boot (leftBehind dflt db t0 u0 (h ++ Op.flush tf true :: g)) t1 u1) [.connect c]
      (.subscribe c p order now)
    (∀ k u, kept dflt (baseOf db t0 u0) topic h = some k → k.live tf = true → k.untilUnix = some u → u1 < u →
      (o.reached c ⟨topic, data⟩ ↔ data = k.data ∧ now < t1 + (u - u1) * second))
    ∧ (∀ k, kept dflt (baseOf db t0 u0) topic h = some k → k.live tf = true → k.untilUnix = none →
      (o.reached c ⟨topic, data⟩ ↔ data = k.data))
    ∧ (o.reached c ⟨topic, data⟩ → ∃ k, kept dflt (baseOf db t0 u0) topic h = some k ∧ data = k.data) := by
  intro o
  have hpl' : PlainTopics db (h ++ [Op.flush tf true]) := by
    refine ⟨hpl.rows, fun t d tt n u hm => hpl.ops t d tt n u ?_⟩
    simpa using hm
  have hf' : FlushesOk (h ++ [Op.flush tf true]) := by
    intro now hm
    rcases List.mem_append.1 hm with hm | hm
    · exact hf now hm
    · simp at hm
  have hsync := SyncInv.of_run (dflt := dflt) (u0 := u0) hdb _ hv hpl' hf'
  have hdirty : (run dflt (boot db t0 u0) (h ++ [Op.flush tf true])).1.dirty = false := by
    rw [run_snoc]
    simp only [step]
    split
    · rfl
    · next hd => exact Bool.not_eq_true _ ▸ hd
  have hleft : leftBehind dflt db t0 u0 (h ++ Op.flush tf true :: g)
      = (run dflt (boot db t0 u0) (h ++ [Op.flush tf true])).1.db := by
    unfold leftBehind
    rw [← List.singleton_append, ← List.append_assoc, run_append]
    exact db_quiet g _ hg
  obtain ⟨hw, hplain, hs⟩ := hsync
  have hag := hs hdirty
  rw [lastTime_snoc] at hag
  simp only [Op.time, Option.getD_some] at hag
  obtain ⟨hsnd, hcmp⟩ := hag
  rw [← hleft] at hw hplain hsnd hcmp
  have hkk : ∀ x, keptRev dflt (baseOf db t0 u0) x (h ++ [Op.flush tf true]).reverse = kept dflt (baseOf db t0 u0) x h := by
    intro x; rw [List.reverse_append]; rfl
  have hans : ∀ d, o.reached c ⟨topic, d⟩ ↔ ∃ k, baseOf (leftBehind dflt db t0 u0 (h ++ Op.flush tf true :: g)) t1 u1 topic = some k
      ∧ k.live now = true ∧ d = k.data := by
    intro d
    have := (C18_retained_partial dflt (leftBehind dflt db t0 u0 (h ++ Op.flush tf true :: g)) hw t1 u1 [.connect c] c p
      order now ⟨by simp [connects], by simp [times, hnow]⟩ ⟨hplain, by simp⟩ hp (by simp [connected, connectedRev])).2 c ⟨topic, d⟩
    rw [show o.reached c ⟨topic, d⟩ ↔ _ from this]
    simp only [hm, true_and]
    rfl
  refine ⟨?_, ?_, ?_⟩
  · intro k u hk hl hu hlt
    rw [hans]
    have hrow := hcmp topic k (by rw [hkk]; exact hk) hl
    have hb : baseOf (leftBehind dflt db t0 u0 (h ++ Op.flush tf true :: g)) t1 u1 topic
        = some ⟨k.data, some (t1 + (u - u1) * second), some u⟩ := by
      simp only [baseOf, hrow, hu, if_pos hlt]
    rw [hb]
    constructor
    · rintro ⟨_, h1, h2, h3⟩; cases h1; exact ⟨h3, of_decide_eq_true h2⟩
    · rintro ⟨rfl, h2⟩; exact ⟨_, rfl, decide_eq_true h2, rfl⟩
  · intro k hk hl hu
    rw [hans]
    have hrow := hcmp topic k (by rw [hkk]; exact hk) hl
    have hb : baseOf (leftBehind dflt db t0 u0 (h ++ Op.flush tf true :: g)) t1 u1 topic = some ⟨k.data, none, none⟩ := by
      simp only [baseOf, hrow, hu]
    rw [hb]
    constructor
    · rintro ⟨_, h1, _, h3⟩; cases h1; exact h3
    · rintro rfl; exact ⟨_, rfl, rfl, rfl⟩
  · rw [hans]
    rintro ⟨k', h1, _, h3⟩
    cases hr : mget (leftBehind dflt db t0 u0 (h ++ Op.flush tf true :: g)) topic with
    | none => simp only [baseOf, hr] at h1; cases h1
    | some v =>
      obtain ⟨k, h4, h5⟩ := hsnd topic v hr
      rw [hkk] at h4
      refine ⟨k, h4, ?_⟩
      rw [h3]
      simp only [baseOf, hr, h5] at h1
      cases hu : k.untilUnix with
      | none => rw [hu] at h1; cases h1; rfl
      | some u => rw [hu] at h1; cases h1; rfl

/-- Non-vacuity: `a/x` (a minute to live) and `c` (a second), flush, restart: both are there, then `c` is gone. -/
example : leftBehind 60 [] 0 0 (exR ++ [.flush 5 true]) = [([97, 47, 120], [2], some 60), ([99], [4], some 1)]
    ∧ (answer 60 (boot [([97, 47, 120], [2], some 60), ([99], [4], some 1)] 7 0) [.connect 9] (.subscribe 9 [35] [] 8)).sent
      = [(9, ⟨[97, 47, 120], [2]⟩), (9, ⟨[99], [4]⟩)]
    ∧ (answer 60 (boot [([97, 47, 120], [2], some 60), ([99], [4], some 1)] 7 0) [.connect 9]
        (.subscribe 9 [35] [] 1000000007)).sent = [(9, ⟨[97, 47, 120], [2]⟩)] := by decide

/-- What a client that connects after the restart and subscribes to a pattern is sent. -/
def afterRestart (h : List Op) (t1 u1 : Nat) (p : Str) (now : Nat) : List (Cid × Msg) :=
  (answer 60 (boot (leftBehind 60 [] 0 0 h) t1 u1) [.connect 9] (.subscribe 9 p [] now)).sent

/-- C21 is violated: a value retained for `/a` comes back under `a`. -/
theorem C21_violated_leading_slash :
    ∃ h, kept 60 (fun _ => none) [47, 97] h = some ⟨[1], some 60000000000, some 60⟩
      ∧ kept 60 (fun _ => none) [97] h = none
      ∧ afterRestart (h ++ [Op.flush 1 true]) 2 2 [47, 97] 3 = []
      ∧ afterRestart (h ++ [Op.flush 1 true]) 2 2 [97] 3 = [(9, ⟨[97], [1]⟩)] :=
  ⟨[.publish [47, 97] [1] true none 0 0], by decide, by decide, by decide, by decide⟩

/-- C21 is violated: values for `a` and `/a` make every flush fail, also for the unrelated topic `b`. -/
theorem C21_violated_clash :
    ∃ h, kept 60 (fun _ => none) [98] h = some ⟨[3], some 60000000000, some 60⟩
      ∧ afterRestart (h ++ [Op.flush 1 true]) 2 2 [98] 3 = [] :=
  ⟨[.publish [97] [1] true none 0 0, .publish [47, 97] [2] true none 0 0, .publish [98] [3] true none 0 0],
    by decide, by decide⟩

/-- C21 is violated: a value whose time to live (one second) ends while the server is down is served after the
restart, and for ever: here more than eleven days later. -/
theorem C21_violated_expired_while_down :
    ∃ h, kept 60 (fun _ => none) [97] h = some ⟨[1], some 1000000000, some 1⟩
      ∧ afterRestart (h ++ [Op.flush 1 true]) 2 100 [97] 1000000000000000 = [(9, ⟨[97], [1]⟩)] :=
  ⟨[.publish [97] [1] true (some 1) 0 0], by decide, by decide⟩

/-- C21 is violated after one failed flush: the next flush, which would succeed, does not write the value. -/
theorem C21_violated_failed_flush :
    ∃ h, kept 60 (fun _ => none) [97] h = some ⟨[1], some 60000000000, some 60⟩
      ∧ afterRestart (h ++ [Op.flush 1 false, .flush 2 true]) 3 2 [97] 4 = [] :=
  ⟨[.publish [97] [1] true none 0 0], by decide, by decide⟩

end Verif.PubSub
