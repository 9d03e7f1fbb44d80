import Verif.Proofs.Rpc8

/-!
# Lemmas about clients, network and server together: nothing is lost, step by step
-/

namespace Verif.Rpc

open Verif Verif.Wire Verif.Sdk

variable {E I : Type}

/-- What has been sent fits, if requests are within the limit. -/
theorem sent_fits {pr : Printer} {srv : Server E I} {w : World E} {tr : List (Obs I)} (h : Inv pr w tr) (hw : Within pr srv tr) (l : Nat) :
    ∀ f ∈ sentOn pr l tr, ReqOk f ∧ f.payload.length ≤ srv.max := by
  intro f hf
  refine ⟨h.ok l f hf, ?_⟩
  obtain ⟨o, ho, hfr⟩ := List.mem_filterMap.mp hf
  obtain ⟨cmd, h1, h2⟩ := frame_wrote hfr
  have h3 : o.cmd? = some cmd := by
    cases o with
    | called p tag c s =>
      cases s with
      | none => cases h1
      | some li =>
        obtain ⟨a, b⟩ := li
        simp only [Obs.wrote] at h1
        split at h1
        · exact h1
        · cases h1
    | fired p c s =>
      cases s with
      | none => cases h1
      | some li =>
        obtain ⟨a, b⟩ := li
        simp only [Obs.wrote] at h1
        split at h1
        · exact h1
        · cases h1
    | executed => cases h1
    | pushed => cases h1
    | ticked => cases h1
    | settled => cases h1
  exact hw o ho cmd h3 _ _ h2

theorem no_exec_settle {p : Nat} {outs : List (Nat × Outcome)} {l : Nat} {f : Frame} {now : Nat} {r : Option Response} :
    Obs.executed l f now r ∉ (settle p outs : List (Obs I)) := by
  intro h
  obtain ⟨x, _, hx⟩ := List.mem_map.mp h
  cases hx

theorem no_call_settle {p : Nat} {outs : List (Nat × Outcome)} {q t : Nat} {c : Cmd} {s : Option (Nat × Nat)} :
    Obs.called q t c s ∉ (settle p outs : List (Obs I)) := by
  intro h
  obtain ⟨x, _, hx⟩ := List.mem_map.mp h
  cases hx

theorem settle_mem {p : Nat} {outs : List (Nat × Outcome)} {t : Nat} {o : Outcome} (h : (t, o) ∈ outs) :
    Obs.settled p t o ∈ (settle p outs : List (Obs I)) := List.mem_map.mpr ⟨(t, o), h, rfl⟩

theorem Kept.toServer {pr : Printer} {srv : Server E I} {w : World E} {tr : List (Obs I)} (h : Kept srv w tr) (hi : Inv pr w tr)
    (hw : Within pr srv tr) {l n : Nat} :
    Kept srv (w.step pr srv (.toServer l n)).1 (tr ++ (w.step pr srv (.toServer l n)).2) := by
  simp only [World.step]
  split
  · simpa using h
  · refine h.link l _ rfl rfl ?_ ?_ (fun l' f now r hx => nomatch hx) (fun p t c s hx => nomatch hx) ⟨[], ?_, by simp⟩
    · obtain ⟨h1, h2⟩ := h.need l
      obtain ⟨rest, h3, h4⟩ := (hi.links l).wire
      have h5 := h4 h1
      have hfit := sent_fits hi hw l
      rw [h3] at hfit
      have hne : (drain srv.max ((w.links l).reader.buf ++ (w.links l).toServer.take n)).err = false := by
        refine drain_noerr srv.max _ ((w.links l).toServer.drop n) rest (fun f hf => hfit f (List.mem_append.mpr (.inr hf))) ?_
        rw [List.append_assoc, List.take_append_drop]; exact h5
      show (Reader.feed srv.max _ _).err = false ∧ decode srv.max (Reader.feed srv.max _ _).buf = .need
      unfold Reader.feed
      rw [if_neg (by rw [h1]; exact Bool.false_ne_true)]
      exact ⟨hne, drain_idem _ _ hne⟩
    · intro f now r hx
      rw [List.append_nil] at hx
      simp only [handOn_eq]
      exact h.outs l f now r hx
    · simp only [handOn_eq, List.append_nil]

theorem Kept.server {pr : Printer} {srv : Server E I} {w : World E} {tr : List (Obs I)} (h : Kept srv w tr) {l now : Nat} {e : CEvent} :
    Kept srv (w.step pr srv (.server l now e)).1 (tr ++ (w.step pr srv (.server l now e)).2) := by
  have quiet : ∀ (_ : ∀ f, e ≠ .read f) (_ : ∀ i, e ≠ .complete i) (new : List (Obs I)) (_ : ∀ l f now r, Obs.executed l f now r ∉ new)
      (_ : ∀ p t c s, Obs.called p t c s ∉ new) (w' : World E)
      (_ : w'.links = upd w.links l (let c := Conn.step (srv.handle l now) { (w.links l).conn with engine := w.engine } e
        { w.links l with conn := c, toClient := (w.links l).toClient ++ (c.written.drop (w.links l).conn.written.length).flatMap encode }))
      (_ : w'.peers = w.peers), Kept srv w' (tr ++ new) := by
    intro h1 h2 new he hc w' hw hpe
    refine h.link l _ hw hpe (h.need l) ?_ (fun l' f now r hx => absurd hx (he _ _ _ _)) hc
      ⟨_, written_prefix (srv.handle l now) { (w.links l).conn with engine := w.engine } e, rfl⟩
    intro f now' r hx
    rcases List.mem_append.mp hx with hx | hx
    · have h3 := h.outs l f now' r hx
      cases e with
      | read f => exact absurd rfl (h1 f)
      | complete i => exact absurd rfl (h2 i)
      | spawn => simp only [Conn.step]; split <;> exact h3
      | pushed packet => exact h3
      | bridge =>
        simp only [Conn.step]
        split
        · exact h3
        · simp only [Conn.outs, List.mem_append, List.mem_singleton, reduceCtorEq, or_false] at h3 ⊢
          exact h3
      | write =>
        rw [show (Conn.step (srv.handle l now) { (w.links l).conn with engine := w.engine } .write).outs = (w.links l).conn.outs from outs_write _]
        exact h3
      | post i =>
        have hx : (Conn.step (srv.handle l now) { (w.links l).conn with engine := w.engine } (.post i)).outs.Perm (w.links l).conn.outs := outs_post _ i
        exact hx.mem_iff.mpr h3
    · exact absurd hx (he _ _ _ _)
  cases e with
  | read f => simpa [World.step] using h
  | complete i =>
    simp only [World.step]
    cases hf : (w.links l).conn.running[i]? with
    | none =>
      have hst : Conn.step (srv.handle l now) { (w.links l).conn with engine := w.engine } (.complete i) = { (w.links l).conn with engine := w.engine } := by
        simp only [Conn.step, hf]
      rw [hst]
      refine h.link l _ rfl rfl (h.need l) ?_ (fun l' f now r hx => nomatch hx) (fun p t c s hx => nomatch hx) ⟨[], by simp, by simp⟩
      intro f now' r hx
      exact h.outs l f now' r (by simpa using hx)
    | some f =>
      have hf' : ({ (w.links l).conn with engine := w.engine } : Conn E).running[i]? = some f := hf
      have hx0 : (Conn.step (srv.handle l now) { (w.links l).conn with engine := w.engine } (.complete i)).outs =
          (w.links l).conn.outs ++ (answerOf f (srv.handle l now f w.engine).2).map sends := outs_complete hf'
      refine h.link l _ rfl rfl (h.need l) ?_ ?_ ?_ ⟨[], by rw [step_some hf']; simp, by simp⟩
      · intro f' now' r hx
        rw [hx0]
        rcases List.mem_append.mp hx with hx | hx
        · exact List.mem_append.mpr (.inl (h.outs l f' now' r hx))
        · injection List.mem_singleton.mp hx with _ h2 _ h4
          subst h2
          rw [← h4]
          exact List.mem_append.mpr (.inr (List.mem_singleton.mpr rfl))
      · intro l' f' now' r hx
        injection List.mem_singleton.mp hx
      · intro p t c s hx
        cases List.mem_singleton.mp hx
  | spawn =>
    simp only [World.step]
    split
    · simpa using h
    · exact quiet (by intro f; simp) (by intro i; simp) [] (fun _ _ _ _ hx => nomatch hx) (fun _ _ _ _ hx => nomatch hx) _ rfl rfl
  | pushed packet =>
    simp only [World.step]
    split
    · simpa using h
    · exact quiet (by intro f; simp) (by intro i; simp) _ (fun _ _ _ _ hx => by cases List.mem_singleton.mp hx)
        (fun _ _ _ _ hx => by cases List.mem_singleton.mp hx) _ rfl rfl
  | bridge =>
    simp only [World.step]
    split
    · simpa using h
    · exact quiet (by intro f; simp) (by intro i; simp) [] (fun _ _ _ _ hx => nomatch hx) (fun _ _ _ _ hx => nomatch hx) _ rfl rfl
  | write =>
    simp only [World.step]
    split
    · simpa using h
    · exact quiet (by intro f; simp) (by intro i; simp) [] (fun _ _ _ _ hx => nomatch hx) (fun _ _ _ _ hx => nomatch hx) _ rfl rfl
  | post i =>
    simp only [World.step]
    split
    · simpa using h
    · exact quiet (by intro f; simp) (by intro i; simp) [] (fun _ _ _ _ hx => nomatch hx) (fun _ _ _ _ hx => nomatch hx) _ rfl rfl

theorem Kept.drop {pr : Printer} {srv : Server E I} {w : World E} {tr : List (Obs I)} (h : Kept srv w tr) {l : Nat} :
    Kept srv (w.step pr srv (.drop l)).1 (tr ++ (w.step pr srv (.drop l)).2) := by
  refine h.link l _ rfl rfl (h.need l) ?_ (fun l' f now r hx => nomatch hx) (fun p t c s hx => nomatch hx) ⟨[], by simp, by simp⟩
  intro f now r hx
  exact h.outs l f now r (by simpa [World.step] using hx)

theorem Kept.tick {pr : Printer} {srv : Server E I} {w : World E} {tr : List (Obs I)} (h : Kept srv w tr) {x : I} :
    Kept srv (w.step pr srv (.tick x)).1 (tr ++ (w.step pr srv (.tick x)).2) := by
  refine ⟨h.need, ?_, h.buf, h.seen, ?_⟩
  · intro l f now r hx
    rcases List.mem_append.mp hx with hx | hx
    · exact h.outs l f now r hx
    · cases List.mem_singleton.mp hx
  · intro p tag cmd l id hx hl
    rcases List.mem_append.mp hx with hx | hx
    · rcases h.calls p tag cmd l id hx hl with h1 | ⟨o, h1⟩
      · exact .inl h1
      · exact .inr ⟨o, List.mem_append.mpr (.inl h1)⟩
    · cases List.mem_singleton.mp hx

theorem Kept.toClient {pr : Printer} {srv : Server E I} {w : World E} {tr : List (Obs I)} (h : Kept srv w tr) (hi : Inv pr w tr) {l n : Nat} :
    Kept srv (w.step pr srv (.toClient l n)).1 (tr ++ (w.step pr srv (.toClient l n)).2) := by
  simp only [World.step]
  split
  · next hl =>
    have hP := hi.peers (w.links l).peer
    have hopen := hP.sock.mpr ⟨l, hl⟩
    have hmwf : MWF (w.peers (w.links l).peer).lib.pending := by obtain ⟨k, _, hk, _⟩ := hP.num; exact hk.2.1
    obtain ⟨hk1, hk2⟩ := chunk_kept (tsDrain ((w.peers (w.links l).peer).buf ++ (w.links l).toClient.take n)).1 (w.peers (w.links l).peer).lib hmwf hopen
    have hfew := fewer_responses (w.peers (w.links l).peer).lib (tsDrain ((w.peers (w.links l).peer).buf ++ (w.links l).toClient.take n)).1
    refine h.peer (w.links l).peer _ rfl ?_ ?_ ?_ (tsDrain_idem _) ?_ ?_ (fun q t c s hx => absurd hx no_call_settle)
    · intro l'
      dsimp only
      by_cases hll : l' = l
      · subst hll; rw [upd_same]; exact h.need l'
      · rw [upd_other _ _ hll]; exact h.need l'
    · intro l' f now r hx
      rcases List.mem_append.mp hx with hx | hx
      · have := h.outs l' f now r hx
        dsimp only
        by_cases hll : l' = l
        · subst hll; rw [upd_same]; exact this
        · rw [upd_other _ _ hll]; exact this
      · exact absurd hx no_exec_settle
    · intro q l' hq hl'
      have h1 := ((hi.peers q).client l' hl').2.1
      have hll : l' ≠ l := by rintro rfl; exact hq h1.symm
      dsimp only
      rw [upd_other _ _ hll]; exact ⟨rfl, rfl⟩
    · intro l' hl'
      have hll : l' = l := by
        have hl'' : (w.peers (w.links l).peer).link = some l' := hl'
        rw [hl] at hl''; injection hl'' with hx; exact hx.symm
      subst hll
      obtain ⟨seen, rest, h1, h2, h3⟩ := h.seen _ l' hl
      rw [← List.take_append_drop n (w.links l').toClient, ← List.append_assoc] at h2
      have hfit : ∀ o ∈ rest, o.Fits := fun o ho => (hi.links l').fits.1 o
        (mem_outs.mpr (.inl (by rw [h1]; exact List.mem_append.mpr (.inr ho))))
      obtain ⟨s2, r2, b1, b2, b3⟩ := tsDrain_sent _ _ rest hfit h2
      refine ⟨seen ++ s2, r2, ?_, ?_, ?_⟩
      · dsimp only; rw [upd_same, List.append_assoc, ← b1]; exact h1
      · dsimp only; rw [upd_same]; exact b3
      · intro id r hm hk
        rcases List.mem_append.mp hm with hm | hm
        · exact h3 id r hm (mkeys_mono hfew.pending hk)
        · have h4 : (Outbound.response id r).frame ∈ (tsDrain ((w.peers (w.links l').peer).buf ++ (w.links l').toClient.take n)).1 := by
            rw [b2]; exact List.mem_map.mpr ⟨_, hm, rfl⟩
          have h5 := hk2 _ h4 (response_frame id r).1
          rw [(response_frame id r).2] at h5
          exact h5 hk
    · intro tag cmd l' id hx hl'
      rcases List.mem_append.mp hx with hx | hx
      · rcases h.calls _ tag cmd l' id hx hl' with ⟨e, h1, h2, h3⟩ | ⟨o, h1⟩
        · rcases hk1 e.1 e.2 h2 with h4 | ⟨o, h4⟩
          · exact .inl ⟨e, h1, h4, h3⟩
          · refine .inr ⟨o, List.mem_append.mpr (.inr (settle_mem ?_))⟩
            rw [← h3]; exact h4
        · exact .inr ⟨o, List.mem_append.mpr (.inl h1)⟩
      · exact absurd hx no_call_settle
  · simpa using h

theorem Kept.lib {pr : Printer} {srv : Server E I} {w : World E} {tr : List (Obs I)} (h : Kept srv w tr) (hi : Inv pr w tr)
    (hord : Ordinary pr srv tr) {p : Nat} {e : CEv} :
    Kept srv (w.step pr srv (.lib p e)).1 (tr ++ (w.step pr srv (.lib p e)).2) := by
  have hP := hi.peers p
  simp only [World.step]
  cases hout : outside e with
  | false => simpa using h
  | true =>
    simp only [Bool.not_true, Bool.false_eq_true, if_false]
    split
    · next hop =>
      obtain ⟨rfl, hcg⟩ := hop
      have hln : (w.peers p).link = none := by
        cases hl : (w.peers p).link with
        | none => rfl
        | some l => have := hP.sock.mpr ⟨l, hl⟩; rw [hcg] at this; cases this
      refine h.peer p _ rfl ?_ ?_ ?_ (h.buf p) ?_ ?_ (fun q t c s hx => absurd hx no_call_settle)
      · intro l
        dsimp only
        by_cases hl : l = w.made
        · subst hl; rw [upd_same]; exact ⟨rfl, rfl⟩
        · rw [upd_other _ _ hl]; exact h.need l
      · intro l f now r hx
        rcases List.mem_append.mp hx with hx | hx
        · have hl : l ≠ w.made := by
            rintro rfl
            have h1 := (hi.unmade w.made (Nat.le_refl _)).2
            have h2 : f ∈ execOn w.made tr := List.mem_filterMap.mpr ⟨_, hx, by simp [execOf]⟩
            rw [h1] at h2; cases h2
          dsimp only
          rw [upd_other _ _ hl]; exact h.outs l f now r hx
        · exact absurd hx no_exec_settle
      · intro q l hq hl
        have h1 := ((hi.peers q).client l hl).1
        dsimp only
        rw [upd_other _ _ (by omega)]; exact ⟨rfl, rfl⟩
      · intro l hl
        injection hl with hl
        subst hl
        refine ⟨[], [], by dsimp only; rw [upd_same]; rfl, ?_, fun id r hx => nomatch hx⟩
        dsimp only
        rw [upd_same, hP.buf hln]; rfl
      · intro tag cmd l id hx hl
        injection hl with hl
        subst hl
        rcases List.mem_append.mp hx with hx | hx
        · exfalso
          have h1 := (hi.unmade w.made (Nat.le_refl _)).1
          obtain ⟨op, body, _, _, h2⟩ := wrote_frame hord hx (l := w.made) (id := id) (cmd := cmd) (by simp [Obs.wrote])
          have h3 : (⟨1, op, id, body⟩ : Frame) ∈ sentOn pr w.made tr := List.mem_filterMap.mpr ⟨_, hx, h2⟩
          rw [h1] at h3; cases h3
        · exact absurd hx no_call_settle
    · next hop =>
      have hlib : ((w.peers p).after e ((w.peers p).lib.step e).1).lib = ((w.peers p).lib.step e).1 := by
        unfold Peer.after
        split
        · rfl
        · split <;> rfl
      have hlink : ∀ l, ((w.peers p).after e ((w.peers p).lib.step e).1).link = some l →
          ((w.peers p).lib.step e).1.socket = .opened ∧ (w.peers p).link = some l ∧ ((w.peers p).after e ((w.peers p).lib.step e).1).buf = (w.peers p).buf := by
        intro l
        unfold Peer.after
        split
        · next ho => exact fun hl => ⟨ho, hl, rfl⟩
        · split <;> exact fun hl => nomatch hl
      refine h.peer p ((w.peers p).after e ((w.peers p).lib.step e).1) rfl h.need ?_ (fun q l _ _ => ⟨rfl, rfl⟩) ?_ ?_ ?_ (fun q t c s hx => absurd hx no_call_settle)
      · intro l f now r hx
        rcases List.mem_append.mp hx with hx | hx
        · exact h.outs l f now r hx
        · exact absurd hx no_exec_settle
      · unfold Peer.after
        split
        · exact h.buf p
        · split
          · rfl
          · rfl
          · rfl
          · exact h.buf p
      · intro l hl
        obtain ⟨_, h2, h3⟩ := hlink l hl
        obtain ⟨seen, rest, a1, a2, a3⟩ := h.seen p l h2
        refine ⟨seen, rest, a1, by rw [h3]; exact a2, ?_⟩
        intro id r hm hk
        rw [hlib] at hk
        exact a3 id r hm (mkeys_mono (fun x hx => outside_pending hout hx) hk)
      · intro tag cmd l id hx hl
        obtain ⟨h1, h2, _⟩ := hlink l hl
        rw [hlib]
        rcases List.mem_append.mp hx with hx | hx
        · rcases h.calls p tag cmd l id hx h2 with ⟨x, b1, b2, b3⟩ | ⟨o, b1⟩
          · rcases outside_kept hout h1 b2 with b4 | ⟨o, b4⟩
            · exact .inl ⟨x, b1, b4, b3⟩
            · refine .inr ⟨o, List.mem_append.mpr (.inr (settle_mem ?_))⟩
              rw [← b3]; exact b4
          · exact .inr ⟨o, List.mem_append.mpr (.inl b1)⟩
        · exact absurd hx no_call_settle

/-- Client `p` writes a request, or not. -/
theorem Kept.sent {pr : Printer} {srv : Server E I} {w w' : World E} {tr : List (Obs I)} (h : Kept srv w tr) (hi : Inv pr w tr) {p : Nat}
    {lib : Client} {new : List (Obs I)} (hpe : w'.peers = upd w.peers p { w.peers p with lib })
    (hl : ∀ l, (w'.links l).reader = (w.links l).reader ∧ (w'.links l).conn = (w.links l).conn ∧ (w'.links l).toClient = (w.links l).toClient)
    (he : ∀ l f now r, Obs.executed l f now r ∉ new)
    (hk : ∀ id ∈ mkeys lib.pending, id ∈ mkeys (w.peers p).lib.pending ∨ id = (w.peers p).lib.nextId)
    (hids : tr.countP (Obs.isBy p) + 1 < 2 ^ 31 - 1)
    (hold : ∀ id x, (id, x) ∈ (w.peers p).lib.pending → id ≠ (w.peers p).lib.nextId → (id, x) ∈ lib.pending)
    (hc : ∀ tag cmd l id, Obs.called p tag cmd (some (l, id)) ∈ new → ∃ e, ((id : Nat) : Int) = e.1 ∧ e ∈ lib.pending ∧ e.2.tag = tag)
    (hq : ∀ q t c s, Obs.called q t c s ∈ new → q = p) : Kept srv w' (tr ++ new) := by
  have hP := hi.peers p
  obtain ⟨k, hk1, hk2, hk3⟩ := hP.num
  have hid := C63_ids_partial k (by omega)
  have hnk : (w.peers p).lib.nextId = ((k + 1 : Nat) : Int) := by
    have := hk2.1
    rw [hid.1] at this
    omega
  refine h.peer p _ hpe (fun l => by rw [(hl l).1]; exact h.need l) ?_ (fun q l _ _ => ⟨by rw [(hl l).2.1], (hl l).2.2⟩) (h.buf p) ?_ ?_ hq
  · intro l f now r hx
    rw [(hl l).2.1]
    rcases List.mem_append.mp hx with hx | hx
    · exact h.outs l f now r hx
    · exact absurd hx (he _ _ _ _)
  · intro l hlk
    obtain ⟨seen, rest, a1, a2, a3⟩ := h.seen p l hlk
    refine ⟨seen, rest, by rw [(hl l).2.1]; exact a1, by rw [(hl l).2.2]; exact a2, ?_⟩
    intro id r hm hx
    rcases hk _ hx with hx | hx
    · exact a3 id r hm hx
    · obtain ⟨f, now, b1, b2⟩ := (hi.links l).outs id r (mem_outs.mpr (.inl (by rw [a1]; simp [hm])))
      obtain ⟨b3, b4, _⟩ := hP.client l hlk
      have b5 : f ∈ sentOn pr l tr := by
        have b6 : f ∈ execOn l tr := List.mem_filterMap.mpr ⟨_, b1, by simp [execOf]⟩
        obtain ⟨rest', c1, _⟩ := (hi.links l).wire
        rw [c1]
        refine List.mem_append.mpr (.inl ?_)
        rw [← (hi.links l).tasks.mem_iff]
        exact List.mem_append.mpr (.inl (List.mem_append.mpr (.inl b6)))
      have b7 := hk3 l b3 b4 f b5
      rw [hnk] at hx
      omega
  · intro tag cmd l id hx hlk
    rcases List.mem_append.mp hx with hx | hx
    · rcases h.calls p tag cmd l id hx hlk with ⟨x, b1, b2, b3⟩ | ⟨o, b1⟩
      · refine .inl ⟨x, b1, hold x.1 x.2 b2 ?_, b3⟩
        intro hne
        obtain ⟨j, hj, hji⟩ := hk2.2.2 x.1 (List.mem_map.mpr ⟨x, b2, rfl⟩)
        have := C63_ids_partial j (by omega)
        rw [hji, this.1] at hne
        omega
      · exact .inr ⟨o, List.mem_append.mpr (.inl b1)⟩
    · exact .inl (hc tag cmd l id hx)

theorem Kept.call {pr : Printer} {srv : Server E I} {w : World E} {tr : List (Obs I)} (h : Kept srv w tr) (hi : Inv pr w tr) {p tag T now : Nat} {cmd : Cmd}
    (ho : Ordinary pr srv (tr ++ (w.step pr srv (.call p tag T now cmd)).2)) :
    Kept srv (w.step pr srv (.call p tag T now cmd)).1 (tr ++ (w.step pr srv (.call p tag T now cmd)).2) := by
  have hP := hi.peers p
  have hids := ho.ids p
  rw [List.countP_append] at hids
  have hcs : ∀ s (outs : List (Nat × Outcome)), (Obs.called p tag cmd s :: settle p outs : List (Obs I)).countP (Obs.isBy p) = 1 := by
    intro s outs
    rw [List.countP_cons, countP_settle]; simp [Obs.isBy]
  simp only [World.step] at ho hids ⊢
  cases hb : tsBody pr cmd with
  | none =>
    simp only [hb] at ho hids ⊢
    have hc : ([.called p tag cmd none, .settled p tag .threw] : List (Obs I)).countP (Obs.isBy p) = 1 := by simp [Obs.isBy]
    refine h.sent hi (p := p) rfl (fun l => ⟨rfl, rfl, rfl⟩) (fun l f now r hx => by simp at hx) (fun id hx => .inl hx) (by omega) (fun id x hx _ => hx) ?_ ?_
    · intro tag' cmd' l id hx; simp at hx
    · intro q t c s hx
      simp at hx; exact hx.1
  | some ob =>
    obtain ⟨op, body⟩ := ob
    simp only [hb] at ho hids ⊢
    have hid := hP.id (by split at hids <;> (rw [hcs] at hids; exact hids))
    by_cases hcon : (w.peers p).lib.connected = true
    · obtain ⟨l, hl⟩ := hP.connected.mp hcon
      have hw : (w.peers p).lib.wrote (.send tag T now) = some (w.peers p).lib.nextId := by simp [Client.wrote, hcon, hid.1]
      simp only [hw, hl] at ho hids ⊢
      have hstep : (w.peers p).lib.step (.send tag T now) =
          ({ (w.peers p).lib with nextId := tsNextId (w.peers p).lib.nextId, pending := mset (w.peers p).lib.pending (w.peers p).lib.nextId { tag, deadline := now + T } }, []) := by
        simp [Client.step, hid.1, hcon]
      rw [hcs] at hids
      refine h.sent hi (p := p) (lib := ((w.peers p).lib.step (.send tag T now)).1) (by simp [World.write, hl]) ?_ ?_ ?_ hids ?_ ?_ ?_
      · intro l'
        simp only [World.write]
        by_cases hll : l' = l
        · subst hll; rw [upd_same]; exact ⟨rfl, rfl, rfl⟩
        · rw [upd_other _ _ hll]; exact ⟨rfl, rfl, rfl⟩
      · intro l' f now' r hx
        rcases List.mem_cons.mp hx with hx | hx
        · cases hx
        · exact no_exec_settle hx
      · intro id hx
        rw [hstep] at hx
        exact (mem_mkeys_mset.mp hx).symm
      · intro id x hx hne
        rw [hstep]
        exact List.mem_append.mpr (.inl (List.mem_filter.mpr ⟨hx, by simpa using hne⟩))
      · intro tag' cmd' l' id hx
        rcases List.mem_cons.mp hx with hx | hx
        · injection hx with _ h2 _ h4
          injection h4 with h4
          injection h4 with _ h5
          subst h2
          rw [hstep, h5]
          exact ⟨_, hid.2.symm, List.mem_append.mpr (.inr (List.mem_singleton.mpr rfl)), rfl⟩
        · exact absurd hx no_call_settle
      · intro q t c s hx
        rcases List.mem_cons.mp hx with hx | hx
        · injection hx
        · exact absurd hx no_call_settle
    · have hcon' : (w.peers p).lib.connected = false := by simpa using hcon
      have hw : (w.peers p).lib.wrote (.send tag T now) = none := by simp [Client.wrote, hcon']
      have hstep : (w.peers p).lib.step (.send tag T now) =
          ({ (w.peers p).lib with nextId := tsNextId (w.peers p).lib.nextId }, [(tag, .notConnected)]) := by
        simp [Client.step, hid.1, hcon']
      simp only [hw] at ho hids ⊢
      rw [hcs] at hids
      refine h.sent hi (p := p) (lib := ((w.peers p).lib.step (.send tag T now)).1) rfl (fun l => ⟨rfl, rfl, rfl⟩) ?_ ?_ hids ?_ ?_ ?_
      · intro l' f now' r hx
        rcases List.mem_cons.mp hx with hx | hx
        · cases hx
        · exact no_exec_settle hx
      · intro id hx; rw [hstep] at hx; exact .inl hx
      · intro id x hx _; rw [hstep]; exact hx
      · intro tag' cmd' l' id hx
        rcases List.mem_cons.mp hx with hx | hx
        · cases hx
        · exact absurd hx no_call_settle
      · intro q t c s hx
        rcases List.mem_cons.mp hx with hx | hx
        · injection hx
        · exact absurd hx no_call_settle

theorem Kept.fire {pr : Printer} {srv : Server E I} {w : World E} {tr : List (Obs I)} (h : Kept srv w tr) (hi : Inv pr w tr) {p : Nat} {cmd : Cmd}
    (ho : Ordinary pr srv (tr ++ (w.step pr srv (.fire p cmd)).2)) :
    Kept srv (w.step pr srv (.fire p cmd)).1 (tr ++ (w.step pr srv (.fire p cmd)).2) := by
  have hids := ho.ids p
  rw [List.countP_append] at hids
  have hcs : ∀ s, ([Obs.fired p cmd s] : List (Obs I)).countP (Obs.isBy p) = 1 := by
    intro s; simp [Obs.isBy]
  have hpend : ((w.peers p).lib.step .fire).1.pending = (w.peers p).lib.pending := by simp only [Client.step]; split <;> rfl
  have key : ∀ (w' : World E) s, w'.peers = upd w.peers p { w.peers p with lib := ((w.peers p).lib.step .fire).1 } →
      (∀ l, (w'.links l).reader = (w.links l).reader ∧ (w'.links l).conn = (w.links l).conn ∧ (w'.links l).toClient = (w.links l).toClient) →
      tr.countP (Obs.isBy p) + 1 < 2 ^ 31 - 1 → Kept srv w' (tr ++ [.fired p cmd s]) := by
    intro w' s hpe hl hids
    refine h.sent hi hpe hl (fun l f now r hx => by simp at hx) (fun id hx => .inl (by rw [hpend] at hx; exact hx)) hids (fun id x hx _ => by rw [hpend]; exact hx) ?_ ?_
    · intro tag' cmd' l id hx; simp at hx
    · intro q t c s hx; simp at hx
  simp only [World.step] at ho hids ⊢
  split
  · next hb => rw [hb] at hids; simp only [hcs] at hids; exact key _ _ rfl (fun l => ⟨rfl, rfl, rfl⟩) hids
  · next op body hb =>
    rw [hb] at hids
    simp only at hids
    split
    · next id l h1 h2 =>
      rw [h1, h2] at hids
      simp only [hcs] at hids
      refine key _ _ rfl ?_ hids
      intro l'
      simp only [World.write]
      by_cases hll : l' = l
      · subst hll; rw [upd_same]; exact ⟨rfl, rfl, rfl⟩
      · rw [upd_other _ _ hll]; exact ⟨rfl, rfl, rfl⟩
    · refine key _ _ rfl (fun l => ⟨rfl, rfl, rfl⟩) ?_
      split at hids <;> (rw [hcs] at hids; exact hids)

theorem Within.left {pr : Printer} {srv : Server E I} {a b : List (Obs I)} (h : Within pr srv (a ++ b)) : Within pr srv a :=
  fun o ho => h o (List.mem_append.mpr (.inl ho))

theorem Kept.step {pr : Printer} {srv : Server E I} {w : World E} {tr : List (Obs I)} (h : Kept srv w tr) (hi : Inv pr w tr) (e : Ev I)
    (ho : Ordinary pr srv (tr ++ (w.step pr srv e).2)) (hw : Within pr srv (tr ++ (w.step pr srv e).2)) :
    Kept srv (w.step pr srv e).1 (tr ++ (w.step pr srv e).2) := by
  cases e with
  | lib p e => exact h.lib hi ho.left
  | call p tag T now cmd => exact h.call hi ho
  | fire p cmd => exact h.fire hi ho
  | toServer l n => exact h.toServer hi hw.left
  | server l now e => exact h.server
  | drop l => exact h.drop
  | toClient l n => exact h.toClient hi
  | tick x => exact h.tick

theorem kept_run (pr : Printer) (srv : Server E I) (e0 : E) (es : List (Ev I)) (ho : Ordinary pr srv ((World.init e0).run pr srv es).2)
    (hw : Within pr srv ((World.init e0).run pr srv es).2) :
    Kept srv ((World.init e0).run pr srv es).1 ((World.init e0).run pr srv es).2 := by
  induction es using Sdk.snoc_ind with
  | h0 => exact Kept.init srv e0
  | h1 es e ih =>
    rw [run_snoc] at ho hw ⊢
    exact (ih ho.left hw.left).step (holds_run pr srv e0 es ho.left).1 e ho hw

end Verif.Rpc
