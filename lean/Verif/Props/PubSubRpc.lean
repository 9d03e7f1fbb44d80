import Verif.Proofs.PubSubRpc8
import Verif.Props.QueueRpc

/-!
# C105, C106: publish/subscribe behind the network
-/

namespace Verif.Rpc

open Verif Verif.Wire Verif.Sdk

variable {E I : Type}

theorem hub_hosted {pr : Printer} {srv : Server E I} {env : HubEnv} {part : E → Hub} {bg : I → Option PubSub.Op} {desk : Desk I}
    (hp : PubPart srv env part bg desk) {e0 : E} {db : List PubSub.Row} {t0 u0 : Nat} (h0 : part e0 = { st := PubSub.boot db t0 u0 })
    (es : List (HEv I)) (ho : Ordinary pr srv (hubTrace pr srv desk bg part e0 es)) :
    Hosted pr srv env bg part e0 (hubWorld pr srv desk bg part e0 es) (hubTrace pr srv desk bg part e0 es) (hubPushes pr srv desk bg part e0 es) :=
  hosted hp h0 es ho

/-! ## C105 -/

/-- **C105.** The messages that arrive at a client over a connection are, in this order and without a gap, a beginning of what the server says
to the connection: of each publish it carries out, the message, once, if the connection is subscribed at that moment; of each subscription of the
connection, its greetings; and of everything else nothing. -/
theorem C105_order (pr : Printer) (srv : Server E I) {env : HubEnv} {part : E → Hub} {bg : I → Option PubSub.Op} {desk : Desk I}
    (hp : PubPart srv env part bg desk) (e0 : E) {db : List PubSub.Row} {t0 u0 : Nat} (h0 : part e0 = { st := PubSub.boot db t0 u0 })
    (es : List (HEv I)) {tr : List (Obs I)} (htr : tr = hubTrace pr srv desk bg part e0 es) (ho : Ordinary pr srv tr) (hpa : ProperActs (acts tr))
    (l : Nat) :
    ∃ said, Script bg l (acts tr) said ∧ arrivedOver l (hubPushes pr srv desk bg part e0 es) <+: said.flatten := by
  subst htr
  have h := hub_hosted hp h0 es ho
  exact ⟨_, script hp h0 h hpa l, by rw [← hub_said hp h0 h.facts l]; exact arrived_prefix h ho l⟩

/-- **C105.** Once nothing is on its way any more, all of it has arrived, if the connection stands. -/
theorem C105_complete (pr : Printer) (srv : Server E I) {env : HubEnv} {part : E → Hub} {bg : I → Option PubSub.Op} {desk : Desk I}
    (hp : PubPart srv env part bg desk) (e0 : E) {db : List PubSub.Row} {t0 u0 : Nat} (h0 : part e0 = { st := PubSub.boot db t0 u0 })
    (es : List (HEv I)) {tr : List (Obs I)} (htr : tr = hubTrace pr srv desk bg part e0 es) (ho : Ordinary pr srv tr) (hpa : ProperActs (acts tr))
    {w : World E} (hw : w = hubWorld pr srv desk bg part e0 es) {p l : Nat} (hl : (w.peers p).link = some l) (he : (w.links l).ended = false)
    (hd : Delivered w l) :
    ∃ said, Script bg l (acts tr) said ∧ arrivedOver l (hubPushes pr srv desk bg part e0 es) = said.flatten := by
  subst htr hw
  have h := hub_hosted hp h0 es ho
  exact ⟨_, script hp h0 h hpa l, by rw [← hub_said hp h0 h.facts l]; exact arrived_all h ho hl he hd⟩

/-- **C105.** As long as the connection stands, work on this connection alone (bridge, socket task, network, client) brings everything to the
client. -/
theorem C105_progress (pr : Printer) (srv : Server E I) {env : HubEnv} {part : E → Hub} {bg : I → Option PubSub.Op} {desk : Desk I}
    (hp : PubPart srv env part bg desk) (e0 : E) {db : List PubSub.Row} {t0 u0 : Nat} (h0 : part e0 = { st := PubSub.boot db t0 u0 })
    (es : List (HEv I)) {tr : List (Obs I)} (htr : tr = hubTrace pr srv desk bg part e0 es) (ho : Ordinary pr srv tr)
    {w : World E} (hw : w = hubWorld pr srv desk bg part e0 es) {p l : Nat} (hl : (w.peers p).link = some l) (he : (w.links l).ended = false) :
    ∃ more : List (Ev I), (∀ e ∈ more, e.pumps l = true) ∧
      Ordinary pr srv (hubTrace pr srv desk bg part e0 (es ++ more.map .ev)) ∧
      acts (hubTrace pr srv desk bg part e0 (es ++ more.map .ev)) = acts tr ∧
      ((hubWorld pr srv desk bg part e0 (es ++ more.map .ev)).peers p).link = some l ∧
      ((hubWorld pr srv desk bg part e0 (es ++ more.map .ev)).links l).ended = false ∧
      Delivered (hubWorld pr srv desk bg part e0 (es ++ more.map .ev)) l := by
  subst htr hw
  have h := hub_hosted hp h0 es ho
  obtain ⟨_, hpeer, _⟩ := (h.inv.peers p).client l hl
  obtain ⟨w', ⟨more, hm, hr⟩, hd, he', hl'⟩ := pump_all (pr := pr) (srv := srv) (hubWorld pr srv desk bg part e0 es) he hl hpeer
  obtain ⟨_, hobs⟩ := pump_run (pr := pr) (srv := srv) more hm (hubWorld pr srv desk bg part e0 es)
  have ht : hubTrace pr srv desk bg part e0 (es ++ more.map .ev) =
      hubTrace pr srv desk bg part e0 es ++ ((hubWorld pr srv desk bg part e0 es).run pr srv more).2 := by
    unfold hubTrace hubWorld
    rw [expand_append, world_run_append, expand_pump more hm]
  have hw : hubWorld pr srv desk bg part e0 (es ++ more.map .ev) = w' := by
    rw [← hr]
    unfold hubWorld
    rw [expand_append, world_run_append, expand_pump more hm]
  refine ⟨more, hm, ?_, ?_, ?_, ?_, ?_⟩
  · rw [ht]; exact ho.settled hobs
  · rw [ht]
    refine acts_calm _ (fun o ho => ?_)
    obtain ⟨_, _, _, rfl⟩ := hobs o ho
    rfl
  · rw [hw]; exact hl'
  · rw [hw]; exact he'
  · rw [hw]; exact hd

/-- **C105** (part): what a subscription is greeted with: the values retained for the topics that match it, each once, if their time is not over.
Missing: topics that begin with `/` (C18), and values retained before the server started. -/
theorem C105_greeting_partial (pr : Printer) (srv : Server E I) {env : HubEnv} {part : E → Hub} {bg : I → Option PubSub.Op} {desk : Desk I}
    (hp : PubPart srv env part bg desk) (e0 : E) {t0 u0 : Nat} (h0 : part e0 = { st := PubSub.boot [] t0 u0 })
    (es : List (HEv I)) {tr : List (Obs I)} (htr : tr = hubTrace pr srv desk bg part e0 es) (ho : Ordinary pr srv tr) (hpa : ProperActs (acts tr))
    (hck : ClockActs bg t0 (acts tr)) (hpl : PlainActs (acts tr)) (l : Nat) :
    ∃ said, Script bg l (acts tr) said ∧ Greeted env.dflt bg l (acts tr) said ∧
      arrivedOver l (hubPushes pr srv desk bg part e0 es) <+: said.flatten ∧
      (∀ p, ((hubWorld pr srv desk bg part e0 es).peers p).link = some l → ((hubWorld pr srv desk bg part e0 es).links l).ended = false →
        Delivered (hubWorld pr srv desk bg part e0 es) l → arrivedOver l (hubPushes pr srv desk bg part e0 es) = said.flatten) := by
  subst htr
  have h := hub_hosted hp h0 es ho
  refine ⟨_, script hp h0 h hpa l, greeted hp h0 h hpa hck hpl l, ?_, ?_⟩
  · rw [← hub_said hp h0 h.facts l]; exact arrived_prefix h ho l
  · intro p hl he hd
    rw [← hub_said hp h0 h.facts l]; exact arrived_all h ho hl he hd

/-- **C105.** The client decodes each of them to the topic and the value that was encoded. -/
theorem C105_values (pr : Printer) (srv : Server E I) {env : HubEnv} {part : E → Hub} {bg : I → Option PubSub.Op} {desk : Desk I}
    (hp : PubPart srv env part bg desk) (e0 : E) {db : List PubSub.Row} {t0 u0 : Nat} (h0 : part e0 = { st := PubSub.boot db t0 u0 })
    (es : List (HEv I)) {tr : List (Obs I)} (htr : tr = hubTrace pr srv desk bg part e0 es) (ho : Ordinary pr srv tr)
    {l : Nat} {b : Bytes} (hb : (l, b) ∈ hubPushes pr srv desk bg part e0 es) {v : Val} (hv : v.Writable) (hm : (readPush b).payload = tsAny v) :
    tsPush b = some ((readPush b).topic, v) := by
  subst htr
  have h := hub_hosted hp h0 es ho
  have hmem : b ∈ readOn l (hubPushes pr srv desk bg part e0 es) := List.mem_filterMap.mpr ⟨(l, b), hb, by simp⟩
  have hin : b ∈ pushedOn l (hubTrace pr srv desk bg part e0 es) := by
    rcases Nat.lt_or_ge l (hubWorld pr srv desk bg part e0 es).made with hl | hl
    · have h1 := (h.fed.past l hl).subset hmem
      show b ∈ pushedOn l _
      rw [← h.fed.chan l hl]
      exact List.mem_append.mpr (.inl h1)
    · have := (h.fed.unmade l hl).2
      rw [show readOn l (hubPushes pr srv desk bg part e0 es) = [] from this] at hmem
      cases hmem
  obtain ⟨m, _, rfl⟩ := List.mem_map.mp ((h.pre l).subset hin)
  have hlen := ho.pushes l _ (pushedOn_mem hin)
  rw [readPush_packet hlen] at hm ⊢
  have ht : m.topic.length < 2 ^ 32 := by
    simp only [packetOf, wirePush, List.length_append] at hlen
    omega
  exact C06_push_partial m.topic m.payload v ht (by rw [hm]; exact C06_values v hv)

/-! ## C106 -/

theorem carried (pr : Printer) (srv : Server E I) (e0 : E) {w : World E} {tr : List (Obs I)} (hi : Inv pr w tr) (hf : Facts pr srv e0 w tr)
    (es : List (Ev I)) (htr : tr = ((World.init e0).run pr srv es).2)
    (ho : Ordinary pr srv tr) {a b : List (Obs I)} {p tag : Nat} {st : UInt8} {d : Bytes} (hs : tr = a ++ .settled p tag (.answer st d) :: b) :
    ∃ a₁ a₂ cmd l id now r x y, a = a₁ ++ .called p tag cmd (some (l, id)) :: a₂ ∧ acts a = acts a₁ ++ x ++ .did l cmd now (some r) :: y ∧
      shows r = (st, d) := by
  subst htr
  obtain ⟨a1, a2, a3, cmd', l, f, now, r, h1, _, h3⟩ := C93_answered pr srv e0 es ho hs
  obtain ⟨_, k2, _⟩ := exec_after hi hf ho (o := .called p tag cmd' (some (l, f.id))) (cmd := cmd')
    (by rw [hs, h1]; simp) (by simp [Obs.wrote])
    (show _ = (a1 ++ .called p tag cmd' (some (l, f.id)) :: a2) ++ .executed l f now (some r) :: (a3 ++ .settled p tag (.answer st d) :: b) by
      rw [hs, h1]; simp)
  refine ⟨a1, a2 ++ .executed l f now (some r) :: a3, cmd', l, f.id, now, r, actsFrom a1 (.called p tag cmd' (some (l, f.id)) :: a2),
    actsFrom (a1 ++ .called p tag cmd' (some (l, f.id)) :: a2 ++ [.executed l f now (some r)]) a3, by rw [h1]; simp, ?_, h3⟩
  rw [h1, acts_append, acts_append]
  simp only [actsFrom, actOf, k2]
  simp

theorem shows_ok {r : Response} (h : shows r = (0, [])) : r = .ok := by
  cases r with
  | ok => rfl
  | error m => injection h with h; cases h
  | null => injection h with h; cases h
  | data d => injection h with h; cases h

/-- The trace shows promise `tag` of client `p` resolving without a value (as `subscribe` and `publish` do), and the call was this command. -/
structure Resolved (tr a : List (Obs I)) (p tag : Nat) (b : List (Obs I)) (cmd : Cmd) : Prop where
  at_ : tr = a ++ .settled p tag (.answer 0 []) :: b
  call : ∀ c s, Obs.called p tag c s ∈ a → c = cmd

theorem Resolved.did {pr : Printer} {srv : Server E I} {e0 : E} {w : World E} {tr : List (Obs I)} (hi : Inv pr w tr) (hf : Facts pr srv e0 w tr)
    (es : List (Ev I)) (htr : tr = ((World.init e0).run pr srv es).2) (ho : Ordinary pr srv tr) {a b : List (Obs I)} {p tag : Nat} {cmd : Cmd}
    (h : Resolved tr a p tag b cmd) :
    ∃ a₁ a₂ l id now x y, a = a₁ ++ .called p tag cmd (some (l, id)) :: a₂ ∧ acts a = acts a₁ ++ x ++ .did l cmd now (some .ok) :: y := by
  obtain ⟨a1, a2, cmd, l, id, now, r, x, y, k1, k2, k3⟩ := carried pr srv e0 hi hf es htr ho h.at_
  obtain rfl := h.call _ _ (show Obs.called p tag cmd (some (l, id)) ∈ a by rw [k1]; simp)
  obtain rfl := shows_ok k3
  exact ⟨a1, a2, l, id, now, x, y, k1, k2⟩

/-- If a call is not in the first part of a trace, then it comes after it. -/
theorem later {tr a a' b b' : List (Obs I)} {o : Obs I} {c₁ c₂ : List (Obs I)} (h1 : tr = a ++ b) (h2 : tr = a' ++ b')
    (h3 : a' = c₁ ++ o :: c₂) (hn : o ∉ a) : a <+: c₁ := by
  rw [h2, h3, List.append_assoc] at h1
  rcases List.append_eq_append_iff.mp h1 with ⟨z, h1, h2⟩ | ⟨z, h1, h2⟩
  · rcases z with _ | ⟨o', z⟩
    · rw [List.append_nil] at h1; rw [← h1]; exact List.prefix_rfl
    · injection h2 with h2 _
      exact absurd (show o ∈ a by rw [h1, ← h2]; simp) hn
  · exact ⟨z, h1.symm⟩

theorem prefix_acts {a c : List (Obs I)} (h : a <+: c) : acts a <+: acts c := by
  obtain ⟨z, rfl⟩ := h
  rw [acts_append]
  exact ⟨_, rfl⟩

/-- A publish that is carried out after the subscription of a connection that stands reaches it. -/
theorem heard {pr : Printer} {srv : Server E I} {env : HubEnv} {part : E → Hub} {bg : I → Option PubSub.Op} {desk : Desk I}
    (hp : PubPart srv env part bg desk) {e0 : E} {db : List PubSub.Row} {t0 u0 : Nat} (h0 : part e0 = { st := PubSub.boot db t0 u0 })
    {w : World E} {tr : List (Obs I)} {arr : List (Nat × Bytes)} (h : Hosted pr srv env bg part e0 w tr arr) (hpa : ProperActs (acts tr))
    {l : Nat} (hlm : l < w.made) (he : (w.links l).ended = false) {pat topic : Str} {opts : PubOpts} {payload : Bytes} {c now n : Nat}
    {r : Option Response} {u v s t : List (Act I)}
    (hA : acts tr = u ++ .did c (.publish topic opts payload) now (some .ok) :: v) (hu : s ++ .did l (.subscribe pat) n r :: t <+: u)
    (hun : ∀ now r, Act.did l (.unsubscribe pat) now r ∉ acts tr) (hmatch : PubSub.Matches (PubSub.split pat) (PubSub.split topic)) :
    ((chunks env bg (part e0) (acts tr)).map (sentTo l))[u.length]? = some [⟨topic, payload⟩] := by
  have hat := chunks_at env bg (part e0) hA
  have hst : (part e0).steps = 0 := by rw [h0]
  obtain ⟨z, rfl⟩ := hu
  have hlis : Listens bg l topic (s ++ .did l (.subscribe pat) n r :: t ++ z) := by
    refine ⟨pat, ⟨s, n, r, t ++ z, by simp, ?_, ?_⟩, hmatch⟩
    · intro n r' hm
      refine hun n r' ?_
      rw [hA]
      simp only [List.mem_append, List.mem_cons] at hm ⊢
      rcases hm with hm | hm
      · exact .inl (.inl (.inr (.inr hm)))
      · exact .inl (.inr hm)
    · intro act hact
      refine h.alive l hlm he act ?_
      rw [hA]
      exact List.mem_append.mpr (.inl hact)
  rw [List.getElem?_map, hat]
  have := (says hp h0 h hpa l hA).pub c topic opts payload now rfl
  rw [hst]
  exact congrArg some (this.1 hlis)

/-- **C106.** The `subscribe` of a client resolves, and after that another client (or the same) calls `publish` on a topic that matches, which
resolves as well: then the message arrives over the subscriber's connection, exactly once, when everything is delivered, if the connection stands
and the pattern was not unsubscribed. -/
theorem C106_reaches (pr : Printer) (srv : Server E I) {env : HubEnv} {part : E → Hub} {bg : I → Option PubSub.Op} {desk : Desk I}
    (hp : PubPart srv env part bg desk) (e0 : E) {db : List PubSub.Row} {t0 u0 : Nat} (h0 : part e0 = { st := PubSub.boot db t0 u0 })
    (es : List (HEv I)) {tr : List (Obs I)} (htr : tr = hubTrace pr srv desk bg part e0 es) (ho : Ordinary pr srv tr) (hpa : ProperActs (acts tr))
    {w : World E} (hw : w = hubWorld pr srv desk bg part e0 es) {x l : Nat} (hl : (w.peers x).link = some l) (he : (w.links l).ended = false)
    (hd : Delivered w l)
    {a a' b b' : List (Obs I)} {p tag q tag' : Nat} {pat topic : Str} {opts : PubOpts} {payload : Bytes}
    (hsub : Resolved tr a p tag b (.subscribe pat)) (hover : ∀ c s, Obs.called p tag c s ∈ a → ∃ id, s = some (l, id))
    (hpub : Resolved tr a' q tag' b' (.publish topic opts payload)) (hlate : ∀ c s, Obs.called q tag' c s ∉ a)
    (hun : ∀ now r, Act.did l (.unsubscribe pat) now r ∉ acts tr) (hmatch : PubSub.Matches (PubSub.split pat) (PubSub.split topic)) :
    ∃ said u v c now, Script bg l (acts tr) said ∧ arrivedOver l (hubPushes pr srv desk bg part e0 es) = said.flatten ∧
      acts tr = u ++ .did c (.publish topic opts payload) now (some .ok) :: v ∧ said[u.length]? = some [⟨topic, payload⟩] := by
  subst htr hw
  have h := hub_hosted hp h0 es ho
  have hlm := ((h.inv.peers x).client l hl).1
  obtain ⟨a1, a2, l1, id, n, x1, y1, k1, k2⟩ := hsub.did h.inv h.facts _ rfl ho
  obtain ⟨_, hid⟩ := hover _ _ (show Obs.called p tag (.subscribe pat) (some (l1, id)) ∈ a by rw [k1]; simp)
  injection hid with hid
  injection hid with hid _
  subst hid
  obtain ⟨c1, c2, c, id', now, x2, y2, j1, j2⟩ := hpub.did h.inv h.facts _ rfl ho
  have hpre := later hsub.at_ hpub.at_ j1 (hlate _ _)
  have hA : acts (hubTrace pr srv desk bg part e0 es) = acts c1 ++ x2 ++ .did c (.publish topic opts payload) now (some .ok) ::
      (y2 ++ actsFrom a' (.settled q tag' (.answer 0 []) :: b')) := by
    rw [hpub.at_, acts_append, j2]; simp
  refine ⟨_, acts c1 ++ x2, _, c, now, script hp h0 h hpa l1, by rw [← hub_said hp h0 h.facts l1]; exact arrived_all h ho hl he hd, hA, ?_⟩
  have p1 : acts a <+: acts c1 ++ x2 := (prefix_acts hpre).trans (List.prefix_append _ _)
  rw [k2] at p1
  exact heard hp h0 h hpa hlm he hA p1 hun hmatch

theorem split_at {α : Type} {L : List (List α)} {i j : Nat} {m m' : α} (hi : L[i]? = some [m]) (hj : L[j]? = some [m']) (hlt : i < j) :
    ∃ x y z, L.flatten = x ++ m :: y ++ m' :: z := by
  obtain ⟨hi1, hi2⟩ := List.getElem?_eq_some_iff.mp hi
  obtain ⟨hj1, hj2⟩ := List.getElem?_eq_some_iff.mp hj
  have e1 : L = L.take j ++ [m'] :: L.drop (j + 1) := by
    rw [← hj2, List.getElem_cons_drop, List.take_append_drop]
  have hi3 : (L.take j)[i]? = some [m] := by rw [List.getElem?_take, if_pos hlt]; exact hi
  obtain ⟨hi4, hi5⟩ := List.getElem?_eq_some_iff.mp hi3
  have e2 : L.take j = (L.take j).take i ++ [m] :: (L.take j).drop (i + 1) := by
    rw [← hi5, List.getElem_cons_drop, List.take_append_drop]
  refine ⟨((L.take j).take i).flatten, ((L.take j).drop (i + 1)).flatten, (L.drop (j + 1)).flatten, ?_⟩
  have := congrArg List.flatten e1
  rw [e2] at this
  rw [this]
  simp

/-- **C106.** The `subscribe` of a client resolves; after that somebody's `publish` is called and resolves; after that somebody's second
`publish` is called and resolves. The two messages arrive over the subscriber's connection in this order. -/
theorem C106_order (pr : Printer) (srv : Server E I) {env : HubEnv} {part : E → Hub} {bg : I → Option PubSub.Op} {desk : Desk I}
    (hp : PubPart srv env part bg desk) (e0 : E) {db : List PubSub.Row} {t0 u0 : Nat} (h0 : part e0 = { st := PubSub.boot db t0 u0 })
    (es : List (HEv I)) {tr : List (Obs I)} (htr : tr = hubTrace pr srv desk bg part e0 es) (ho : Ordinary pr srv tr) (hpa : ProperActs (acts tr))
    {w : World E} (hw : w = hubWorld pr srv desk bg part e0 es) {x l : Nat} (hl : (w.peers x).link = some l) (he : (w.links l).ended = false)
    (hd : Delivered w l)
    {a a' a'' b b' b'' : List (Obs I)} {p tag q tag' q' tag'' : Nat} {pat topic topic' : Str} {opts opts' : PubOpts} {payload payload' : Bytes}
    (hsub : Resolved tr a p tag b (.subscribe pat)) (hover : ∀ c s, Obs.called p tag c s ∈ a → ∃ id, s = some (l, id))
    (hpub : Resolved tr a' q tag' b' (.publish topic opts payload)) (hlate : ∀ c s, Obs.called q tag' c s ∉ a)
    (hpub' : Resolved tr a'' q' tag'' b'' (.publish topic' opts' payload')) (hlate' : ∀ c s, Obs.called q' tag'' c s ∉ a')
    (hun : ∀ now r, Act.did l (.unsubscribe pat) now r ∉ acts tr) (hmatch : PubSub.Matches (PubSub.split pat) (PubSub.split topic))
    (hmatch' : PubSub.Matches (PubSub.split pat) (PubSub.split topic')) :
    ∃ u v z, arrivedOver l (hubPushes pr srv desk bg part e0 es) = u ++ ⟨topic, payload⟩ :: v ++ ⟨topic', payload'⟩ :: z := by
  subst htr hw
  have h := hub_hosted hp h0 es ho
  have hlm := ((h.inv.peers x).client l hl).1
  obtain ⟨a1, a2, l1, id, n, x1, y1, k1, k2⟩ := hsub.did h.inv h.facts _ rfl ho
  obtain ⟨_, hid⟩ := hover _ _ (show Obs.called p tag (.subscribe pat) (some (l1, id)) ∈ a by rw [k1]; simp)
  injection hid with hid
  injection hid with hid _
  subst hid
  obtain ⟨c1, c2, c, id', now, x2, y2, j1, j2⟩ := hpub.did h.inv h.facts _ rfl ho
  have hpre := later hsub.at_ hpub.at_ j1 (hlate _ _)
  obtain ⟨d1, d2, d, id'', now', x3, y3, i1, i2⟩ := hpub'.did h.inv h.facts _ rfl ho
  have hpre' := later hpub.at_ hpub'.at_ i1 (hlate' _ _)
  have hA : acts (hubTrace pr srv desk bg part e0 es) = acts c1 ++ x2 ++ .did c (.publish topic opts payload) now (some .ok) ::
      (y2 ++ actsFrom a' (.settled q tag' (.answer 0 []) :: b')) := by
    rw [hpub.at_, acts_append, j2]; simp
  have hA' : acts (hubTrace pr srv desk bg part e0 es) = acts d1 ++ x3 ++ .did d (.publish topic' opts' payload') now' (some .ok) ::
      (y3 ++ actsFrom a'' (.settled q' tag'' (.answer 0 []) :: b'')) := by
    rw [hpub'.at_, acts_append, i2]; simp
  have p1 : acts a <+: acts c1 ++ x2 := (prefix_acts hpre).trans (List.prefix_append _ _)
  have p2 : acts a' <+: acts d1 ++ x3 := (prefix_acts hpre').trans (List.prefix_append _ _)
  have p3 : acts a <+: acts d1 ++ x3 := p1.trans (List.IsPrefix.trans (by rw [j2]; exact List.prefix_append _ _) p2)
  rw [k2] at p1 p3
  have g1 := heard hp h0 h hpa hlm he hA p1 hun hmatch
  have g2 := heard hp h0 h hpa hlm he hA' p3 hun hmatch'
  have hlt : (acts c1 ++ x2).length < (acts d1 ++ x3).length := by
    have := p2.length_le
    rw [j2, List.length_append, List.length_cons] at this
    omega
  rw [arrived_all h ho hl he hd, hub_said hp h0 h.facts l1]
  exact split_at g1 g2 hlt

/-! ## A concrete server -/

def exHubEnv : HubEnv := { dflt := 60, order := fun _ => [], unix := fun k => 1000 + k }

def exHubSerde : Serde := { exSerde with pub := fun b => if b = [91] then some ⟨some true, none⟩ else if b = [123] then some ⟨none, none⟩ else none }

def exHubPrinter : Printer := { exPrinter with pub := fun o => if o.retain = some true then [91] else [123] }

def exHubBg (x : PubSub.Op) : Option PubSub.Op := if ofHub x then some x else none

/-- A server with nothing but publish/subscribe. -/
def exHubServer : Server Hub PubSub.Op where
  max := 1000
  sd := exHubSerde
  exec := fun l now cmd e => hubExec exHubEnv l now cmd e
  tick := fun x e => if ofHub x then e.step exHubEnv x else e

def exHubDesk : Desk PubSub.Op := { opened := .connect, faded := .drop, left := .disconnect }

theorem exHubPart : PubPart exHubServer exHubEnv (fun e => e) exHubBg exHubDesk := by
  refine ⟨fun l now cmd e _ => rfl, ?_, ?_, ?_, fun _ => rfl, fun _ => rfl, fun _ => rfl⟩
  · intro l now cmd e hs
    cases cmd <;> first | rfl | cases hs
  · intro x e
    simp only [exHubServer, exHubBg]
    split <;> rfl
  · intro x op h
    simp only [exHubBg] at h
    split at h
    · injection h with h; subst h; assumption
    · cases h

/-- A request from the call to the answer. -/
def exHubReq (p tag now : Nat) (cmd : Cmd) : List (HEv PubSub.Op) :=
  [.ev (.call p tag 5000 0 cmd), .ev (.toServer p 100), .ev (.server p now .spawn), .ev (.server p now (.complete 0)), .ev (.server p now (.post 0)),
   .ev (.server p now .write), .ev (.toClient p 100)]

/-- The bridge forwards a message of connection `l`, the socket task writes it and the client reads it, in two pieces. -/
def exHubGet (l : Nat) : List (HEv PubSub.Op) := [.ev (.server l 0 .bridge), .ev (.server l 0 .write), .ev (.toClient l 7), .ev (.toClient l 100)]

def exHubObs (p tag now : Nat) (cmd : Cmd) (op : UInt8) (body : Bytes) : List (Obs PubSub.Op) :=
  [.called p tag cmd (some (p, tag)), .executed p ⟨1, op, tag, body⟩ now (some .ok), .settled p tag (.answer 0 [])]

def exHub0 : Hub := { st := PubSub.boot [] 0 1000 }

/-- The second client subscribes to `a/+`; the first one publishes on `a/x`, to be retained, and on `b`; then it subscribes to `a/#`, publishes on
`a/y`. -/
def exHubEvents : List (HEv PubSub.Op) :=
  [.ev (.lib 0 .connect), .ev (.lib 0 .opened), .ev (.lib 1 .connect), .ev (.lib 1 .opened)]
  ++ exHubReq 1 1 1 (.subscribe [97, 47, 43])
  ++ exHubReq 0 1 2 (.publish [97, 47, 120] ⟨some true, none⟩ [0, 7])
  ++ exHubReq 0 2 3 (.publish [98] ⟨none, none⟩ [0, 8])
  ++ exHubGet 1
  ++ exHubReq 0 3 4 (.subscribe [97, 47, 35])
  ++ exHubGet 0
  ++ exHubReq 0 4 5 (.publish [97, 47, 121] ⟨none, none⟩ [0, 9])
  ++ exHubGet 0 ++ exHubGet 1

def exHubTrace : List (Obs PubSub.Op) :=
  [.ticked (.connect 0), .ticked (.connect 1)]
  ++ exHubObs 1 1 1 (.subscribe [97, 47, 43]) 34 [0, 0, 0, 3, 97, 47, 43]
  ++ [.called 0 1 (.publish [97, 47, 120] ⟨some true, none⟩ [0, 7]) (some (0, 1)),
      .executed 0 ⟨1, 33, 1, [0, 0, 0, 3, 97, 47, 120, 0, 0, 0, 1, 91, 0, 7]⟩ 2 (some .ok), .pushed 1 (wirePush [97, 47, 120] [0, 7]),
      .settled 0 1 (.answer 0 [])]
  ++ exHubObs 0 2 3 (.publish [98] ⟨none, none⟩ [0, 8]) 33 [0, 0, 0, 1, 98, 0, 0, 0, 1, 123, 0, 8]
  ++ [.called 0 3 (.subscribe [97, 47, 35]) (some (0, 3)), .executed 0 ⟨1, 34, 3, [0, 0, 0, 3, 97, 47, 35]⟩ 4 (some .ok),
      .pushed 0 (wirePush [97, 47, 120] [0, 7]), .settled 0 3 (.answer 0 [])]
  ++ [.called 0 4 (.publish [97, 47, 121] ⟨none, none⟩ [0, 9]) (some (0, 4)),
      .executed 0 ⟨1, 33, 4, [0, 0, 0, 3, 97, 47, 121, 0, 0, 0, 1, 123, 0, 9]⟩ 5 (some .ok),
      .pushed 0 (wirePush [97, 47, 121] [0, 9]), .pushed 1 (wirePush [97, 47, 121] [0, 9]), .settled 0 4 (.answer 0 [])]

set_option maxRecDepth 100000 in
theorem exHubRun : hubTrace exHubPrinter exHubServer exHubDesk exHubBg (fun e => e) exHub0 exHubEvents = exHubTrace := by decide +kernel

set_option maxRecDepth 100000 in
theorem exHubArrived₁ : arrivedOver 1 (hubPushes exHubPrinter exHubServer exHubDesk exHubBg (fun e => e) exHub0 exHubEvents) =
    [⟨[97, 47, 120], [0, 7]⟩, ⟨[97, 47, 121], [0, 9]⟩] := by decide +kernel

set_option maxRecDepth 100000 in
theorem exHubArrived₀ : arrivedOver 0 (hubPushes exHubPrinter exHubServer exHubDesk exHubBg (fun e => e) exHub0 exHubEvents) =
    [⟨[97, 47, 120], [0, 7]⟩, ⟨[97, 47, 121], [0, 9]⟩] := by decide +kernel

theorem exHubOrdinary : Ordinary exHubPrinter exHubServer exHubTrace := by
  refine ⟨?_, ?_, ?_, fun p => countP_le _ _ _ (by decide)⟩
  · intro o ho cmd hc
    simp only [exHubTrace, exHubObs, List.mem_append, List.mem_cons, List.not_mem_nil, or_false, or_assoc] at ho
    rcases ho with rfl | rfl | rfl | rfl | rfl | rfl | rfl | rfl | rfl | rfl | rfl | rfl | rfl | rfl | rfl | rfl | rfl | rfl | rfl | rfl | rfl <;>
      simp only [Obs.cmd?, reduceCtorEq] at hc <;> injection hc with hc <;> subst hc
    · refine ⟨show StrOk _ by decide, trivial, ?_⟩
      intro op body hb
      injection hb with hb; injection hb with h1 h2; subst h2; decide
    · refine ⟨show StrOk _ by decide, ⟨by decide, by decide⟩, ?_⟩
      intro op body hb
      injection hb with hb; injection hb with h1 h2; subst h2; decide
    · refine ⟨show StrOk _ by decide, ⟨by decide, by decide⟩, ?_⟩
      intro op body hb
      injection hb with hb; injection hb with h1 h2; subst h2; decide
    · refine ⟨show StrOk _ by decide, trivial, ?_⟩
      intro op body hb
      injection hb with hb; injection hb with h1 h2; subst h2; decide
    · refine ⟨show StrOk _ by decide, ⟨by decide, by decide⟩, ?_⟩
      intro op body hb
      injection hb with hb; injection hb with h1 h2; subst h2; decide
  · intro l f now r hm
    simp only [exHubTrace, exHubObs, List.mem_append, List.mem_cons, List.not_mem_nil, or_false, or_assoc, reduceCtorEq, false_or, Obs.executed.injEq,
      Option.some.injEq] at hm
    rcases hm with ⟨rfl, rfl, rfl, rfl⟩ | ⟨rfl, rfl, rfl, rfl⟩ | ⟨rfl, rfl, rfl, rfl⟩ | ⟨rfl, rfl, rfl, rfl⟩ | ⟨rfl, rfl, rfl, rfl⟩ <;> decide
  · intro l p hm
    simp only [exHubTrace, exHubObs, List.mem_append, List.mem_cons, List.not_mem_nil, or_false, or_assoc, reduceCtorEq, false_or, Obs.pushed.injEq] at hm
    rcases hm with ⟨rfl, rfl⟩ | ⟨rfl, rfl⟩ | ⟨rfl, rfl⟩ | ⟨rfl, rfl⟩ <;> decide

/-- What the server did in it. -/
def exHubActs : List (Act PubSub.Op) :=
  [.ticked (.connect 0), .ticked (.connect 1), .did 1 (.subscribe [97, 47, 43]) 1 (some .ok),
   .did 0 (.publish [97, 47, 120] ⟨some true, none⟩ [0, 7]) 2 (some .ok), .did 0 (.publish [98] ⟨none, none⟩ [0, 8]) 3 (some .ok),
   .did 0 (.subscribe [97, 47, 35]) 4 (some .ok), .did 0 (.publish [97, 47, 121] ⟨none, none⟩ [0, 9]) 5 (some .ok)]

theorem exHub_acts : acts exHubTrace = exHubActs := rfl

theorem exHub_proper : ProperActs exHubActs := by
  intro l p now r hm
  simp only [exHubActs, List.mem_cons, List.not_mem_nil, or_false, reduceCtorEq, false_or, Act.did.injEq, Cmd.subscribe.injEq, false_and, and_false] at hm
  rcases hm with ⟨_, rfl, _⟩ | ⟨_, rfl, _⟩ <;> decide

/-- The hypotheses of `C105_order`, `C105_complete` and `C105_greeting_partial` are met; something arrives over both connections
(`exHubArrived₀`, `exHubArrived₁`). -/
example : ClockActs exHubBg 0 exHubActs ∧ PlainActs exHubActs := by
  refine ⟨by unfold ClockActs; decide, ?_⟩
  intro c topic opts payload now r hm
  simp only [exHubActs, List.mem_cons, List.not_mem_nil, or_false, reduceCtorEq, false_or, Act.did.injEq, Cmd.publish.injEq, false_and, and_false] at hm
  rcases hm with ⟨_, ⟨rfl, _⟩, _⟩ | ⟨_, ⟨rfl, _⟩, _⟩ | ⟨_, ⟨rfl, _⟩, _⟩ <;> intro _ h <;> revert h <;> decide

theorem exHub_link (l : Nat) (h : l = 0 ∨ l = 1) : ((hubWorld exHubPrinter exHubServer exHubDesk exHubBg (fun e => e) exHub0 exHubEvents).peers l).link = some l ∧
    ((hubWorld exHubPrinter exHubServer exHubDesk exHubBg (fun e => e) exHub0 exHubEvents).links l).ended = false ∧
    Delivered (hubWorld exHubPrinter exHubServer exHubDesk exHubBg (fun e => e) exHub0 exHubEvents) l := by
  rcases h with rfl | rfl
  · refine ⟨?_, ?_, ?_, ?_, ?_⟩ <;> set_option maxRecDepth 100000 in decide +kernel
  · refine ⟨?_, ?_, ?_, ?_, ?_⟩ <;> set_option maxRecDepth 100000 in decide +kernel

example : ∃ said, Script exHubBg 1 (acts exHubTrace) said ∧
    arrivedOver 1 (hubPushes exHubPrinter exHubServer exHubDesk exHubBg (fun e => e) exHub0 exHubEvents) = said.flatten :=
  C105_complete exHubPrinter exHubServer exHubPart exHub0 rfl exHubEvents exHubRun.symm exHubOrdinary (by rw [exHub_acts]; exact exHub_proper)
    rfl (exHub_link 1 (.inr rfl)).1 (exHub_link 1 (.inr rfl)).2.1 (exHub_link 1 (.inr rfl)).2.2

/-- `C105_values`: the packet of the first message. -/
example : (1, wirePush [97, 47, 120] [0, 7]) ∈ hubPushes exHubPrinter exHubServer exHubDesk exHubBg (fun e => e) exHub0 exHubEvents ∧
    (readPush (wirePush [97, 47, 120] [0, 7])).payload = tsAny (.raw [7]) ∧ tsPush (wirePush [97, 47, 120] [0, 7]) = some ([97, 47, 120], .raw [7]) := by
  refine ⟨?_, rfl, by decide⟩
  set_option maxRecDepth 100000 in decide +kernel

/-- `C106_order` (and with it `C106_reaches`): the second client's subscription, and the first client's first and third publish. -/
example : ∃ u v z, arrivedOver 1 (hubPushes exHubPrinter exHubServer exHubDesk exHubBg (fun e => e) exHub0 exHubEvents) =
    u ++ ⟨[97, 47, 120], [0, 7]⟩ :: v ++ ⟨[97, 47, 121], [0, 9]⟩ :: z := by
  refine C106_order exHubPrinter exHubServer exHubPart exHub0 rfl exHubEvents exHubRun.symm exHubOrdinary (by rw [exHub_acts]; exact exHub_proper)
    rfl (exHub_link 1 (.inr rfl)).1 (exHub_link 1 (.inr rfl)).2.1 (exHub_link 1 (.inr rfl)).2.2
    (a := exHubTrace.take 4) (b := exHubTrace.drop 5) (a' := exHubTrace.take 8) (b' := exHubTrace.drop 9) (a'' := exHubTrace.take 20) (b'' := [])
    (p := 1) (tag := 1) (q := 0) (tag' := 1) (q' := 0) (tag'' := 4) (pat := [97, 47, 43]) (opts := ⟨some true, none⟩) (opts' := ⟨none, none⟩)
    ⟨rfl, ?_⟩ ?_ ⟨rfl, ?_⟩ ?_ ⟨rfl, ?_⟩ ?_ ?_ ?_ ?_
  · intro c s hm; simp [exHubTrace, exHubObs] at hm; exact hm.1
  · intro c s hm; simp [exHubTrace, exHubObs] at hm; exact ⟨_, hm.2⟩
  · intro c s hm; simp [exHubTrace, exHubObs] at hm; exact hm.1
  · intro c s hm; simp [exHubTrace, exHubObs] at hm
  · intro c s hm; simp [exHubTrace, exHubObs] at hm; exact hm.1
  · intro c s hm; simp [exHubTrace, exHubObs] at hm
  · intro now r hm; rw [exHub_acts] at hm; simp [exHubActs] at hm
  · exact .level (by decide) (by decide) (.plus .done)
  · exact .level (by decide) (by decide) (.plus .done)

/-! ### Pipelined publishes -/

/-- **C107** (partial: the first publish was answered before the second one was made).  Two messages that a client publishes one after the other
arrive in that order at every subscriber. -/
theorem C107_answered_first_partial (pr : Printer) (srv : Server E I) {env : HubEnv} {part : E → Hub} {bg : I → Option PubSub.Op} {desk : Desk I}
    (hp : PubPart srv env part bg desk) (e0 : E) {db : List PubSub.Row} {t0 u0 : Nat} (h0 : part e0 = { st := PubSub.boot db t0 u0 })
    (es : List (HEv I)) {tr : List (Obs I)} (htr : tr = hubTrace pr srv desk bg part e0 es) (ho : Ordinary pr srv tr) (hpa : ProperActs (acts tr))
    {w : World E} (hw : w = hubWorld pr srv desk bg part e0 es) {x l : Nat} (hl : (w.peers x).link = some l) (he : (w.links l).ended = false)
    (hd : Delivered w l)
    {a a' a'' b b' b'' : List (Obs I)} {p tag q tag' tag'' : Nat} {pat topic topic' : Str} {opts opts' : PubOpts} {payload payload' : Bytes}
    (hsub : Resolved tr a p tag b (.subscribe pat)) (hover : ∀ c s, Obs.called p tag c s ∈ a → ∃ id, s = some (l, id))
    (hpub : Resolved tr a' q tag' b' (.publish topic opts payload)) (hlate : ∀ c s, Obs.called q tag' c s ∉ a)
    (hpub' : Resolved tr a'' q tag'' b'' (.publish topic' opts' payload')) (hlate' : ∀ c s, Obs.called q tag'' c s ∉ a')
    (hun : ∀ now r, Act.did l (.unsubscribe pat) now r ∉ acts tr) (hmatch : PubSub.Matches (PubSub.split pat) (PubSub.split topic))
    (hmatch' : PubSub.Matches (PubSub.split pat) (PubSub.split topic')) :
    ∃ u v z, arrivedOver l (hubPushes pr srv desk bg part e0 es) = u ++ ⟨topic, payload⟩ :: v ++ ⟨topic', payload'⟩ :: z :=
  C106_order pr srv hp e0 h0 es htr ho hpa hw hl he hd hsub hover hpub hlate hpub' hlate' hun hmatch hmatch'

/-- One client subscribes; another one publishes two messages without waiting. -/
def exPipelinedHub : List (HEv PubSub.Op) :=
  [.ev (.lib 0 .connect), .ev (.lib 0 .opened), .ev (.lib 1 .connect), .ev (.lib 1 .opened)]
  ++ exHubReq 1 1 1 (.subscribe [97])
  ++ [.ev (.call 0 1 5000 0 (.publish [97] ⟨none, none⟩ (tsAny (.raw [7])))), .ev (.call 0 2 5000 0 (.publish [97] ⟨none, none⟩ (tsAny (.raw [8])))),
      .ev (.toServer 0 100), .ev (.server 0 2 .spawn), .ev (.server 0 2 .spawn), .ev (.server 0 2 (.complete 1)), .ev (.server 0 2 (.complete 0)),
      .ev (.server 0 2 (.post 0)), .ev (.server 0 2 (.post 0)), .ev (.server 0 2 .write), .ev (.server 0 2 .write), .ev (.toClient 0 100)]
  ++ exHubGet 1 ++ exHubGet 1

/-- **C107 is violated.**  A client publishes one message and then another on the same topic; both are answered, and the subscriber gets the
second one first. -/
theorem C107_violated : ∃ (es : List (HEv PubSub.Op)) (f₁ f₂ f₃ : Frame), f₁.id = 1 ∧ f₂.id = 1 ∧ f₃.id = 2 ∧
    hubTrace exHubPrinter exHubServer exHubDesk exHubBg (fun e => e) exHub0 es =
      [.ticked (.connect 0), .ticked (.connect 1), .called 1 1 (.subscribe [97]) (some (1, 1)), .executed 1 f₁ 1 (some .ok), .settled 1 1 (.answer 0 []),
       .called 0 1 (.publish [97] ⟨none, none⟩ (tsAny (.raw [7]))) (some (0, 1)), .called 0 2 (.publish [97] ⟨none, none⟩ (tsAny (.raw [8]))) (some (0, 2)),
       .executed 0 f₃ 2 (some .ok), .pushed 1 (wirePush [97] (tsAny (.raw [8]))), .executed 0 f₂ 2 (some .ok), .pushed 1 (wirePush [97] (tsAny (.raw [7]))),
       .settled 0 2 (.answer 0 []), .settled 0 1 (.answer 0 [])] ∧
    (hubPushes exHubPrinter exHubServer exHubDesk exHubBg (fun e => e) exHub0 es).map (fun e => (e.1, tsPush e.2)) =
      [(1, some ([97], .raw [8])), (1, some ([97], .raw [7]))] := by
  refine ⟨exPipelinedHub, ⟨1, 34, 1, [0, 0, 0, 1, 97]⟩, ⟨1, 33, 1, [0, 0, 0, 1, 97, 0, 0, 0, 1, 123, 0, 7]⟩, ⟨1, 33, 2, [0, 0, 0, 1, 97, 0, 0, 0, 1, 123, 0, 8]⟩,
    rfl, rfl, rfl, ?_, ?_⟩
  · set_option maxRecDepth 100000 in decide +kernel
  · set_option maxRecDepth 100000 in decide +kernel

end Verif.Rpc
