import Verif.Proofs.Rpc4

/-!
# Lemmas about clients, network and server together: the invariant holds throughout
-/

namespace Verif.Rpc

open Verif Verif.Wire Verif.Sdk

variable {E I : Type}

theorem Ordinary.left {pr : Printer} {srv : Server E I} {a b : List (Obs I)} (h : Ordinary pr srv (a ++ b)) : Ordinary pr srv a :=
  ⟨fun o ho => h.cmds o (List.mem_append.mpr (.inl ho)),
   fun l f now r ho => h.answers l f now r (List.mem_append.mpr (.inl ho)),
   fun l p ho => h.pushes l p (List.mem_append.mpr (.inl ho)),
   fun p => Nat.lt_of_le_of_lt (countP_append_le _ _ _) (h.ids p)⟩

theorem countP_settle (p q : Nat) (outs : List (Nat × Outcome)) : (settle q outs : List (Obs I)).countP (Obs.isBy p) = 0 := by
  rw [List.countP_eq_zero]
  intro o ho
  obtain ⟨x, _, rfl⟩ := List.mem_map.mp ho
  simp [Obs.isBy]

/-- The id under which a client writes. -/
theorem PeerInv.id {pr : Printer} {p : Nat} {x : Peer} {links : Nat → Link E} {made : Nat} {tr : List (Obs I)}
    (h : PeerInv pr p x links made tr) (hi : tr.countP (Obs.isBy p) + 1 < 2 ^ 31 - 1) :
    tsIdOk x.lib.nextId = true ∧ x.lib.nextId = (x.lib.nextId.toNat : Int) := by
  obtain ⟨k, h1, h2, _⟩ := h.num
  have h3 := C63_ids_partial k (by omega)
  rw [h2.1]
  refine ⟨h3.2.1, ?_⟩
  rw [h3.1]
  omega

theorem PeerInv.connected {pr : Printer} {p : Nat} {x : Peer} {links : Nat → Link E} {made : Nat} {tr : List (Obs I)}
    (h : PeerInv pr p x links made tr) : x.lib.connected = true ↔ ∃ l, x.link = some l := h.sound.opened.trans h.sock

theorem Inv.call {pr : Printer} {srv : Server E I} {w : World E} {tr : List (Obs I)} (h : Inv pr w tr) {p tag T now : Nat} {cmd : Cmd}
    (ho : Ordinary pr srv (tr ++ (w.step pr srv (.call p tag T now cmd)).2)) :
    Inv pr (w.step pr srv (.call p tag T now cmd)).1 (tr ++ (w.step pr srv (.call p tag T now cmd)).2) := by
  have hP := h.peers p
  have hids := ho.ids p
  rw [List.countP_append] at hids
  simp only [World.step] at ho hids ⊢
  cases hb : tsBody pr cmd with
  | none =>
    simp only [hb] at ho hids ⊢
    have hc : ([.called p tag cmd none, .settled p tag .threw] : List (Obs I)).countP (Obs.isBy p) = 1 := by simp [Obs.isBy]
    refine h.unwritten (p := p) rfl rfl rfl (fun l => rfl) (fun l => rfl) ?_ hP.sock hP.buf (fun l hl => ⟨hl, rfl⟩) ?_ ?_
    · obtain ⟨h1, h2, h3, h4, h5, h6, h7, h8, h9⟩ := hP.sound
      exact ⟨h1, h2, h3, h4, h5, h6, h7, h8, h9⟩
    · intro k hk
      refine .inr ⟨⟨?_, hk.2.1, fun id hi => ?_⟩, hc⟩
      · show tsNextId _ = _; rw [hk.1]; rfl
      · obtain ⟨j, hj, e⟩ := hk.2.2 id hi
        exact ⟨j, by omega, e⟩
    · intro id e he; exact ⟨he, rfl⟩
  | some ob =>
    obtain ⟨op, body⟩ := ob
    simp only [hb] at ho hids ⊢
    have hcs : ∀ s (outs : List (Nat × Outcome)), (Obs.called p tag cmd s :: settle p outs : List (Obs I)).countP (Obs.isBy p) = 1 := by
      intro s outs
      rw [List.countP_cons, countP_settle]; simp [Obs.isBy]
    have hid := hP.id (by split at hids <;> (rw [hcs] at hids; exact hids))
    have hsound := hP.sound.step (.send tag T now)
    by_cases hcon : (w.peers p).lib.connected = true
    · obtain ⟨l, hl⟩ := hP.connected.mp hcon
      have hw : (w.peers p).lib.wrote (.send tag T now) = some (w.peers p).lib.nextId := by simp [Client.wrote, hcon, hid.1]
      simp only [hw, hl] at ho hids ⊢
      have hstep : (w.peers p).lib.step (.send tag T now) =
          ({ (w.peers p).lib with nextId := tsNextId (w.peers p).lib.nextId, pending := mset (w.peers p).lib.pending (w.peers p).lib.nextId { tag, deadline := now + T } }, []) := by
        simp [Client.step, hid.1, hcon]
      have hbl : body.length < 2 ^ 32 := (ho.cmds _ (List.mem_append.mpr (.inr (List.mem_cons_self ..))) cmd rfl).2.2 op body hb
      have hmwf : MWF (w.peers p).lib.pending := by obtain ⟨k, _, hk, _⟩ := hP.num; exact hk.2.1
      refine h.written (n := (w.peers p).lib.nextId.toNat) (lib := ((w.peers p).lib.step (.send tag T now)).1) hl rfl (by simp [World.write, hl]) rfl hb hbl ?_ ?_ (hcs _ _) (by rw [List.countP_append]; exact hids) hid.2 ?_ hsound ?_ ?_ ?_ ?_
      · intro l'
        rw [← List.singleton_append, sentOn_append, sentOn_settle, List.append_nil]
        simp only [sentOn, List.filterMap_cons, List.filterMap_nil, frameOf, reqFrame, hb, Option.map]
        by_cases hll : l' = l
        · subst hll; simp
        · rw [if_neg (Ne.symm hll), if_neg hll]
      · intro l'
        rw [← List.singleton_append, execOn_append, execOn_settle]; rfl
      · rw [hstep]
      · rw [hstep]
      · rw [hstep]; exact MWF.mset hmwf _ _
      · intro id hi
        rw [hstep] at hi
        rw [← hid.2]
        exact mem_mkeys_mset.mp hi
      · intro id e hie
        rw [hstep] at hie
        rcases List.mem_append.mp (show (id, e) ∈ mdel _ _ ++ [_] from hie) with hie | hie
        · exact .inl (List.mem_filter.mp hie).1
        · injection List.mem_singleton.mp hie with h1 h2
          refine .inr ⟨by rw [h1, ← hid.2], cmd, ?_⟩
          rw [h2]
          exact List.mem_cons_self ..
    · have hcon' : (w.peers p).lib.connected = false := by simpa using hcon
      have hw : (w.peers p).lib.wrote (.send tag T now) = none := by simp [Client.wrote, hcon']
      have hln : (w.peers p).link = none := by
        cases hl : (w.peers p).link with
        | none => rfl
        | some l => exact absurd (hP.connected.mpr ⟨l, hl⟩) hcon
      have hstep : (w.peers p).lib.step (.send tag T now) =
          ({ (w.peers p).lib with nextId := tsNextId (w.peers p).lib.nextId }, [(tag, .notConnected)]) := by
        simp [Client.step, hid.1, hcon']
      simp only [hw] at ho hids ⊢
      refine h.unwritten (p := p) (x := { w.peers p with lib := ((w.peers p).lib.step (.send tag T now)).1 }) rfl rfl rfl ?_ ?_ hsound ?_ hP.buf (fun l hl => ⟨hl, rfl⟩) ?_ ?_
      · intro l'
        rw [← List.singleton_append, sentOn_append, sentOn_settle]; rfl
      · intro l'
        rw [← List.singleton_append, execOn_append, execOn_settle]; rfl
      · show ((w.peers p).lib.step (.send tag T now)).1.socket = _ ↔ _
        rw [hstep]; exact hP.sock
      · intro k hk
        rcases hk.step (.send tag T now) with h1 | ⟨h1, _⟩
        · exact .inl h1
        · exact .inr ⟨h1, hcs _ _⟩
      · intro id e he
        simp only [hstep] at he
        exact ⟨he, rfl⟩

theorem Inv.fire {pr : Printer} {srv : Server E I} {w : World E} {tr : List (Obs I)} (h : Inv pr w tr) {p : Nat} {cmd : Cmd}
    (ho : Ordinary pr srv (tr ++ (w.step pr srv (.fire p cmd)).2)) :
    Inv pr (w.step pr srv (.fire p cmd)).1 (tr ++ (w.step pr srv (.fire p cmd)).2) := by
  have hP := h.peers p
  have hids := ho.ids p
  rw [List.countP_append] at hids
  simp only [World.step] at ho hids ⊢
  have hcs : ∀ s, ([Obs.fired p cmd s] : List (Obs I)).countP (Obs.isBy p) = 1 := by
    intro s; simp [Obs.isBy]
  have hid := hP.id (by split at hids <;> (try split at hids) <;> (rw [hcs] at hids; exact hids))
  have hsound := hP.sound.step .fire
  have hsock : ((w.peers p).lib.step .fire).1.socket = (w.peers p).lib.socket := by simp only [Client.step]; split <;> rfl
  have hpend : ((w.peers p).lib.step .fire).1.pending = (w.peers p).lib.pending := by simp only [Client.step]; split <;> rfl
  have quiet : ∀ (w' : World E), w'.links = w.links → w'.peers = upd w.peers p { w.peers p with lib := ((w.peers p).lib.step .fire).1 } →
      w'.made = w.made → Inv pr w' (tr ++ [.fired p cmd none]) := by
    intro w' hl hp hm
    refine h.unwritten (p := p) hl hp hm (fun l => rfl) (fun l => rfl) hsound ?_ hP.buf (fun l hl => ⟨hl, rfl⟩) ?_ ?_
    · show ((w.peers p).lib.step .fire).1.socket = _ ↔ _
      rw [hsock]; exact hP.sock
    · intro k hk
      rcases hk.step .fire with h1 | ⟨h1, _⟩
      · exact .inl h1
      · exact .inr ⟨h1, hcs _⟩
    · intro id e he
      exact ⟨by simpa only [hpend] using he, rfl⟩
  cases hb : tsBody pr cmd with
  | none =>
    simp only [hb] at ho hids ⊢
    exact quiet _ rfl rfl rfl
  | some ob =>
    obtain ⟨op, body⟩ := ob
    simp only [hb] at ho hids ⊢
    by_cases hcon : (w.peers p).lib.connected = true
    · obtain ⟨l, hl⟩ := hP.connected.mp hcon
      have hw : (w.peers p).lib.wrote .fire = some (w.peers p).lib.nextId := by simp [Client.wrote, hcon, hid.1]
      simp only [hw, hl] at ho hids ⊢
      have hstep : (w.peers p).lib.step .fire = ({ (w.peers p).lib with nextId := tsNextId (w.peers p).lib.nextId }, []) := by
        simp [Client.step, hcon]
      have hbl : body.length < 2 ^ 32 := (ho.cmds _ (List.mem_append.mpr (.inr (List.mem_cons_self ..))) cmd rfl).2.2 op body hb
      have hmwf : MWF (w.peers p).lib.pending := by obtain ⟨k, _, hk, _⟩ := hP.num; exact hk.2.1
      refine h.written (n := (w.peers p).lib.nextId.toNat) (lib := ((w.peers p).lib.step .fire).1) hl rfl (by simp [World.write, hl]) rfl hb hbl ?_ (fun _ => rfl) (hcs _) (by rw [List.countP_append]; exact hids) hid.2 ?_ hsound hsock ?_ ?_ ?_
      · intro l'
        simp only [sentOn, List.filterMap_cons, List.filterMap_nil, frameOf, reqFrame, hb, Option.map]
        by_cases hll : l' = l
        · subst hll; simp
        · rw [if_neg (Ne.symm hll), if_neg hll]
      · rw [hstep]
      · rw [hpend]; exact hmwf
      · intro id hi; rw [hpend] at hi; exact .inr hi
      · intro id e hie; rw [hpend] at hie; exact .inl hie
    · have hcon' : (w.peers p).lib.connected = false := by simpa using hcon
      have hw : (w.peers p).lib.wrote .fire = none := by simp [Client.wrote, hcon']
      simp only [hw] at ho hids ⊢
      exact quiet _ rfl rfl rfl

theorem Inv.lib {pr : Printer} {srv : Server E I} {w : World E} {tr : List (Obs I)} (h : Inv pr w tr) {p : Nat} {e : CEv} :
    Inv pr (w.step pr srv (.lib p e)).1 (tr ++ (w.step pr srv (.lib p e)).2) := by
  have hP := h.peers p
  simp only [World.step]
  cases hout : outside e with
  | false => simpa using h
  | true =>
    simp only [Bool.not_true, Bool.false_eq_true, if_false]
    have hsound := hP.sound.step e
    split
    · next hop =>
      obtain ⟨rfl, hcg⟩ := hop
      have hln : (w.peers p).link = none := by
        cases hl : (w.peers p).link with
        | none => rfl
        | some l => have := hP.sock.mpr ⟨l, hl⟩; rw [hcg] at this; cases this
      have hpn : (w.peers p).lib.pending = [] := Sound.pending_opened hP.sound (by rw [hcg]; decide)
      have hsock : ((w.peers p).lib.step .opened).1.socket = .opened := by simp only [Client.step, hcg]; split <;> rfl
      have hs : ∀ l, sentOn pr l (settle p ((w.peers p).lib.step .opened).2 : List (Obs I)) = [] := fun l => sentOn_settle ..
      have he : ∀ l, execOn l (settle p ((w.peers p).lib.step .opened).2 : List (Obs I)) = [] := fun l => execOn_settle ..
      have hsent : ∀ l, sentOn pr l (tr ++ settle p ((w.peers p).lib.step .opened).2) = sentOn pr l tr := fun l => by
        rw [sentOn_append, hs, List.append_nil]
      have hexec : ∀ l, execOn l (tr ++ settle p ((w.peers p).lib.step .opened).2) = execOn l tr := fun l => by
        rw [execOn_append, he, List.append_nil]
      refine ⟨?_, ?_, ?_, ?_, ?_⟩
      · intro l
        show LinkInv pr l (upd w.links w.made _ l) _
        by_cases hl : l = w.made
        · subst hl
          rw [upd_same]
          obtain ⟨h1, h2⟩ := h.unmade w.made (Nat.le_refl _)
          refine ⟨⟨[], by rw [hsent]; exact h1, fun _ => rfl⟩, by rw [hexec, h2]; exact List.Perm.refl _, (fun id r h => nomatch h), (fun o h => nomatch h), (fun o h => nomatch h)⟩
        · rw [upd_other _ _ hl]
          exact (h.links l).mono (hs l) (he l)
      · intro l hl
        rw [hsent, hexec]
        exact h.unmade l (by simp only at hl; omega)
      · intro q
        show PeerInv pr q (upd w.peers p _ q) (upd w.links w.made _) (w.made + 1) _
        by_cases hq : q = p
        · subst hq
          rw [upd_same]
          refine ⟨hsound, ⟨fun _ => ⟨_, rfl⟩, fun _ => hsock⟩, fun h => (nomatch h), ?_, ?_, ?_⟩
          · intro id e he
            have := outside_pending hout he
            rw [hpn] at this; cases this
          · obtain ⟨k, h1, h2, h3⟩ := hP.num
            refine ⟨k, Nat.le_trans h1 (countP_append_le _ _ _), Numbered.outside h2 hout, ?_⟩
            intro l hl hp f hf
            rw [hsent] at hf
            by_cases hlm : l = w.made
            · subst hlm
              rw [(h.unmade w.made (Nat.le_refl _)).1] at hf; cases hf
            · rw [upd_other _ _ hlm] at hp
              exact h3 l (by omega) hp f hf
          · intro l hl
            injection hl with hl
            subst hl
            refine ⟨by omega, by rw [upd_same], [], [], by rw [upd_same]; rfl, ?_⟩
            rw [upd_same, hP.buf hln]; rfl
        · rw [upd_other _ _ hq]
          refine (h.peers q).frame (by omega) ?_ ?_ (fun l _ _ => hs l) ?_
          · intro l hl; rw [upd_other _ _ (by omega)]
          · intro l h1 _ _; exact (h.unmade l h1).1
          · intro l hl
            obtain ⟨h1, _, h2⟩ := (h.peers q).client l hl
            rw [upd_other _ _ (by omega)]; exact h2
      · intro l; rw [hsent]; exact h.sorted l
      · intro l; rw [hsent]; exact h.ok l
    · next hop =>
      have hback : ((w.peers p).lib.step e).1.socket = .opened → (w.peers p).lib.socket = .opened := fun ho => by
        rcases outside_opened hout ho with h1 | h1
        · exact h1
        · exact absurd h1 hop
      refine h.unwritten (p := p) (x := (w.peers p).after e ((w.peers p).lib.step e).1) rfl rfl rfl (fun l => sentOn_settle ..) (fun l => execOn_settle ..) ?_ ?_ ?_ ?_ ?_ ?_
      · unfold Peer.after
        split
        · exact hsound
        · split <;> exact hsound
      · unfold Peer.after
        split
        · next ho => exact ⟨fun _ => hP.sock.mp (hback ho), fun _ => ho⟩
        · next ho => split <;> exact ⟨fun hx => absurd hx ho, fun ⟨l, hl⟩ => nomatch hl⟩
      · unfold Peer.after
        split
        · next ho => exact hP.buf
        · next ho =>
          split
          · intro _; rfl
          · intro _; rfl
          · intro _; rfl
          · next h1 h2 h3 =>
            intro _
            by_cases hso : (w.peers p).lib.socket = .opened
            · rcases closes hP.sound hout hso ho with hx | hx | hx
              · exact absurd hx h2
              · exact absurd hx h3
              · exact absurd hx h1
            · apply hP.buf
              cases hl : (w.peers p).link with
              | none => rfl
              | some l => exact absurd (hP.sock.mpr ⟨l, hl⟩) hso
      · intro l
        unfold Peer.after
        split
        · exact fun hl => ⟨hl, rfl⟩
        · split <;> exact fun hl => nomatch hl
      · intro k hk
        left
        have := Numbered.outside hk hout
        unfold Peer.after
        split
        · exact this
        · split <;> exact this
      · intro id e' he'
        have hlib : ((w.peers p).after e ((w.peers p).lib.step e).1).lib = ((w.peers p).lib.step e).1 := by
          unfold Peer.after
          split
          · rfl
          · split <;> rfl
        rw [hlib] at he'
        refine ⟨outside_pending hout he', ?_⟩
        unfold Peer.after
        split
        · rfl
        · next ho =>
          have := Sound.pending_opened hsound ho
          rw [this] at he'; cases he'

theorem Inv.toServer {pr : Printer} {srv : Server E I} {w : World E} {tr : List (Obs I)} (h : Inv pr w tr) {l n : Nat} :
    Inv pr (w.step pr srv (.toServer l n)).1 (tr ++ (w.step pr srv (.toServer l n)).2) := by
  simp only [World.step]
  split
  · simpa using h
  · have hk := (h.links l).toServer srv.max n (h.ok l) _ rfl
    refine h.link l _ rfl rfl rfl (fun _ => rfl) (fun _ _ => rfl) (fun _ => rfl) (by rw [List.append_nil]; exact hk) rfl ⟨[], ?_, by simp⟩
    simp only [handOn_eq, List.append_nil]

theorem Inv.server {pr : Printer} {srv : Server E I} {w : World E} {tr : List (Obs I)} (h : Inv pr w tr) {l now : Nat} {e : CEvent}
    (ho : Ordinary pr srv (tr ++ (w.step pr srv (.server l now e)).2)) :
    Inv pr (w.step pr srv (.server l now e)).1 (tr ++ (w.step pr srv (.server l now e)).2) := by
  have quiet : ∀ (_ : ∀ f, e ≠ .read f) (_ : ∀ i, e ≠ .complete i) (new : List (Obs I)) (_ : ∀ l, sentOn pr l new = []) (_ : ∀ l, execOn l new = [])
      (_ : ∀ packet, e = .pushed packet → packet.length < 2 ^ 32) (w' : World E)
      (_ : w'.links = upd w.links l (let c := Conn.step (srv.handle l now) { (w.links l).conn with engine := w.engine } e
        { w.links l with conn := c, toClient := (w.links l).toClient ++ (c.written.drop (w.links l).conn.written.length).flatMap encode }))
      (_ : w'.peers = w.peers) (_ : w'.made = w.made), Inv pr w' (tr ++ new) := by
    intro h1 h2 new hs he hp w' hw hpe hm
    refine h.link l _ hw hpe hm hs (fun l' _ => he l') (fun _ => he l) ?_ rfl ⟨_, written_prefix (srv.handle l now) { (w.links l).conn with engine := w.engine } e, rfl⟩
    exact (h.links l).quiet (srv.handle l now) w.engine h1 h2 (hs l) (he l) hp _
  cases e with
  | read f => simpa [World.step] using h
  | complete i =>
    simp only [World.step] at ho ⊢
    cases hf : (w.links l).conn.running[i]? with
    | none =>
      refine h.link l _ rfl rfl rfl (fun _ => rfl) (fun _ _ => rfl) (fun _ => rfl) ?_ rfl ⟨[], ?_, by simp⟩
      · rw [List.append_nil]
        have : Conn.step (srv.handle l now) { (w.links l).conn with engine := w.engine } (.complete i) = { (w.links l).conn with engine := w.engine } := by
          simp only [Conn.step, hf]
        rw [this]
        obtain ⟨h1, h2, h3, h4⟩ := h.links l
        exact ⟨h1, h2, h3, h4⟩
      · simp [Conn.step, hf]
    | some f =>
      simp only [hf] at ho ⊢
      have hsent := h.running_sent hf
      refine h.link l _ rfl rfl rfl (fun _ => rfl) ?_ ?_ ?_ rfl ⟨[], ?_, by simp⟩
      · intro l' hl'
        simp [execOn, execOf, Ne.symm hl']
      · intro hl
        rw [(h.unmade l hl).1] at hsent; cases hsent
      · refine (h.links l).complete (srv.handle l now) w.engine hf (h.ok l f hsent).2.1 ?_
        intro r hr
        exact ho.answers l f now r (by rw [← hr]; simp)
      · rw [step_some (show ({ (w.links l).conn with engine := w.engine } : Conn E).running[i]? = some f from hf)]
        simp only [List.append_nil]
  | spawn =>
    simp only [World.step] at ho ⊢
    split
    · simpa using h
    · exact quiet (by intro f; simp) (by intro i; simp) [] (fun _ => rfl) (fun _ => rfl) (by intro p; simp) _ rfl rfl rfl
  | pushed packet =>
    simp only [World.step] at ho ⊢
    split
    · simpa using h
    · next hne =>
      rw [if_neg hne] at ho
      exact quiet (by intro f; simp) (by intro i; simp) _ (fun _ => rfl) (fun _ => rfl)
        (fun p hp => by injection hp with hp; subst hp; exact ho.pushes l packet (by simp)) _ rfl rfl rfl
  | bridge =>
    simp only [World.step] at ho ⊢
    split
    · simpa using h
    · exact quiet (by intro f; simp) (by intro i; simp) [] (fun _ => rfl) (fun _ => rfl) (by intro p; simp) _ rfl rfl rfl
  | write =>
    simp only [World.step] at ho ⊢
    split
    · simpa using h
    · exact quiet (by intro f; simp) (by intro i; simp) [] (fun _ => rfl) (fun _ => rfl) (by intro p; simp) _ rfl rfl rfl
  | post i =>
    simp only [World.step] at ho ⊢
    split
    · simpa using h
    · exact quiet (by intro f; simp) (by intro i; simp) [] (fun _ => rfl) (fun _ => rfl) (by intro p; simp) _ rfl rfl rfl

theorem Inv.drop {pr : Printer} {srv : Server E I} {w : World E} {tr : List (Obs I)} (h : Inv pr w tr) {l : Nat} :
    Inv pr (w.step pr srv (.drop l)).1 (tr ++ (w.step pr srv (.drop l)).2) := by
  refine h.link l _ rfl rfl rfl (fun _ => rfl) (fun _ _ => rfl) (fun _ => rfl) ?_ rfl ⟨[], by simp, by simp⟩
  simp only [World.step, List.append_nil]
  obtain ⟨h1, h2, h3, h4⟩ := h.links l
  exact ⟨h1, h2, h3, h4⟩

theorem Inv.tick {pr : Printer} {srv : Server E I} {w : World E} {tr : List (Obs I)} (h : Inv pr w tr) {x : I} :
    Inv pr (w.step pr srv (.tick x)).1 (tr ++ (w.step pr srv (.tick x)).2) := by
  refine ⟨fun l => (h.links l).mono rfl rfl, ?_, fun p => (h.peers p).same (fun _ => rfl) (fun _ => rfl) (fun l => ⟨[], by simp [World.step], by simp [World.step]⟩), ?_, ?_⟩
  · intro l hl
    rw [sentOn_append, execOn_append]
    obtain ⟨h1, h2⟩ := h.unmade l hl
    rw [h1, h2]; exact ⟨rfl, rfl⟩
  · intro l; rw [sentOn_append]; show (sentOn pr l tr ++ []).Pairwise _; rw [List.append_nil]; exact h.sorted l
  · intro l; rw [sentOn_append]; show ∀ f ∈ sentOn pr l tr ++ [], _; rw [List.append_nil]; exact h.ok l

theorem Inv.toClient {pr : Printer} {srv : Server E I} {w : World E} {tr : List (Obs I)} (h : Inv pr w tr) {l n : Nat} :
    Inv pr (w.step pr srv (.toClient l n)).1 (tr ++ (w.step pr srv (.toClient l n)).2) := by
  simp only [World.step]
  split
  · next hl =>
    have hP := h.peers (w.links l).peer
    obtain ⟨hlm, _, seen, rest, h1, h2⟩ := hP.client l hl
    have hfew := fewer_responses (w.peers (w.links l).peer).lib (tsDrain ((w.peers (w.links l).peer).buf ++ (w.links l).toClient.take n)).1
    generalize hnew : (settle (w.links l).peer ((w.peers (w.links l).peer).lib.outcomes (responses (tsDrain ((w.peers (w.links l).peer).buf ++ (w.links l).toClient.take n)).1)) : List (Obs I)) = new
    have hs : ∀ l, sentOn pr l new = [] := fun l => by rw [← hnew]; exact sentOn_settle ..
    have he : ∀ l, execOn l new = [] := fun l => by rw [← hnew]; exact execOn_settle ..
    have hsent : ∀ l, sentOn pr l (tr ++ new) = sentOn pr l tr := fun l => by rw [sentOn_append, hs, List.append_nil]
    have hexec : ∀ l, execOn l (tr ++ new) = execOn l tr := fun l => by rw [execOn_append, he, List.append_nil]
    have hlinkeq : ∀ l', (upd w.links l { w.links l with toClient := (w.links l).toClient.drop n } l').peer = (w.links l').peer := by
      intro l'
      by_cases hll : l' = l
      · subst hll; rw [upd_same]
      · rw [upd_other _ _ hll]
    refine ⟨?_, ?_, ?_, ?_, ?_⟩
    · intro l'
      show LinkInv pr l' (upd w.links l _ l') _
      by_cases hll : l' = l
      · subst hll
        rw [upd_same]
        obtain ⟨h1, h2, h3, h4⟩ := (h.links l').mono (hs l') (he l')
        exact ⟨h1, h2, h3, h4⟩
      · rw [upd_other _ _ hll]; exact (h.links l').mono (hs l') (he l')
    · intro l' hl'
      rw [hsent, hexec]; exact h.unmade l' hl'
    · intro q
      show PeerInv pr q (upd w.peers (w.links l).peer _ q) (upd w.links l _) w.made _
      by_cases hq : q = (w.links l).peer
      · subst hq
        rw [upd_same]
        refine ⟨hfew.sound hP.sound, ?_, fun hx => ?_, ?_, ?_, ?_⟩
        · show (Client.run _ _).socket = _ ↔ _
          rw [hfew.socket]; exact hP.sock
        · have hx' : (w.peers (w.links l).peer).link = none := hx
          rw [hl] at hx'; cases hx'
        · intro id e hie
          obtain ⟨l', n', c, a1, a2, a3⟩ := hP.pend id e (hfew.pending _ hie)
          exact ⟨l', n', c, a1, a2, List.mem_append.mpr (.inl a3)⟩
        · obtain ⟨k, a1, a2, a3⟩ := hP.num
          refine ⟨k, Nat.le_trans a1 (countP_append_le _ _ _), hfew.numbered k a2, ?_⟩
          intro l' hl' hp f hf
          rw [hsent] at hf
          exact a3 l' hl' ((hlinkeq l').symm.trans hp) f hf
        · intro l' hl'
          have hll : l' = l := by
            have hl'' : (w.peers (w.links l).peer).link = some l' := hl'
            rw [hl] at hl''; injection hl'' with hx; exact hx.symm
          subst hll
          rw [← List.take_append_drop n (w.links l').toClient, ← List.append_assoc] at h2
          have hfit : ∀ o ∈ rest, o.Fits := fun o ho => (h.links l').fits.1 o
            (mem_outs.mpr (.inl (by rw [h1]; exact List.mem_append.mpr (.inr ho))))
          obtain ⟨s2, r2, b1, b2, b3⟩ := tsDrain_sent _ _ rest hfit h2
          refine ⟨hlm, hlinkeq l', seen ++ s2, r2, ?_, ?_⟩
          · rw [upd_same, List.append_assoc, ← b1]; exact h1
          · rw [upd_same]; exact b3
      · rw [upd_other _ _ hq]
        refine (h.peers q).frame (Nat.le_refl _) (fun l' _ => hlinkeq l') (fun l' a b => by omega) (fun l' _ _ => hs l') ?_
        intro l' hl'
        obtain ⟨a1, a2, a3⟩ := (h.peers q).client l' hl'
        have hll : l' ≠ l := by rintro rfl; exact hq a2.symm
        rw [upd_other _ _ hll]; exact a3
    · intro l'; rw [hsent]; exact h.sorted l'
    · intro l'; rw [hsent]; exact h.ok l'
  · simpa using h

theorem Inv.step {pr : Printer} {srv : Server E I} {w : World E} {tr : List (Obs I)} (h : Inv pr w tr) (e : Ev I)
    (ho : Ordinary pr srv (tr ++ (w.step pr srv e).2)) : Inv pr (w.step pr srv e).1 (tr ++ (w.step pr srv e).2) := by
  cases e with
  | lib p e => exact h.lib
  | call p tag T now cmd => exact h.call ho
  | fire p cmd => exact h.fire ho
  | toServer l n => exact h.toServer
  | server l now e => exact h.server ho
  | drop l => exact h.drop
  | toClient l n => exact h.toClient
  | tick x => exact h.tick

end Verif.Rpc
