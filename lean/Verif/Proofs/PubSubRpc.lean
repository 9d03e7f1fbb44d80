import Verif.Proofs.Rpc7
import Verif.Proofs.Rpc8
import Verif.Spec.PubSubRpc

/-!
# Lemmas about pushes between server and clients
-/

namespace Verif.Rpc

open Verif Verif.Wire Verif.Sdk

variable {E I : Type}

/-- The packets handed to the bridge of connection `l`. -/
def pushedOn (l : Nat) (tr : List (Obs I)) : List Bytes :=
  tr.filterMap (fun o => match o with | .pushed l' b => if l' = l then some b else none | _ => none)

/-- The packets read over connection `l`. -/
def readOn (l : Nat) (arr : List (Nat × Bytes)) : List Bytes := arr.filterMap (fun e => if e.1 = l then some e.2 else none)

/-- The packets of these outbound frames. -/
def packetsOf (os : List Outbound) : List Bytes := os.filterMap (fun o => match o with | .push _ b => some b | .response .. => none)

theorem pushedOn_append (l : Nat) (a b : List (Obs I)) : pushedOn l (a ++ b) = pushedOn l a ++ pushedOn l b := List.filterMap_append

theorem readOn_append (l : Nat) (a b : List (Nat × Bytes)) : readOn l (a ++ b) = readOn l a ++ readOn l b := List.filterMap_append

theorem packetsOf_append (a b : List Outbound) : packetsOf (a ++ b) = packetsOf a ++ packetsOf b := List.filterMap_append

theorem pushedOn_settle (l p : Nat) (outs : List (Nat × Outcome)) : pushedOn l (settle p outs : List (Obs I)) = [] := by
  unfold pushedOn settle
  induction outs with
  | nil => rfl
  | cons o t ih => rw [List.map_cons, List.filterMap_cons]; exact ih

theorem pushPackets_frames (os : List Outbound) : pushPackets (os.map Outbound.frame) = packetsOf os := by
  induction os with
  | nil => rfl
  | cons o t ih =>
    cases o with
    | response id r => simp only [List.map_cons, pushPackets, packetsOf, List.filterMap_cons]; cases r <;> (simp [Outbound.frame, typePush]; exact ih)
    | push id b => simp only [List.map_cons, pushPackets, packetsOf, List.filterMap_cons]; simp [Outbound.frame, typePush]; exact ih

theorem readOn_same (l : Nat) (bs : List Bytes) : readOn l (bs.map (fun b => (l, b))) = bs := by
  induction bs with
  | nil => rfl
  | cons b t ih => simp only [readOn, List.map_cons, List.filterMap_cons, if_pos] at ih ⊢; rw [ih]

theorem readOn_other {l l' : Nat} (h : l' ≠ l) (bs : List Bytes) : readOn l (bs.map (fun b => (l', b))) = [] := by
  induction bs with
  | nil => rfl
  | cons b t ih => simp only [readOn, List.map_cons, List.filterMap_cons, if_neg h] at ih ⊢; exact ih

/-- A client reads the pushes of its connection in order, and they are those handed to the bridge. -/
structure Fed (w : World E) (tr : List (Obs I)) (arr : List (Nat × Bytes)) : Prop where
  chan : ∀ l, l < w.made → packetsOf (w.links l).conn.written ++ (packetsOf (w.links l).conn.outbound ++ (w.links l).conn.pushes) = pushedOn l tr
  read : ∀ p l, (w.peers p).link = some l → ∃ seen rest, (w.links l).conn.written = seen ++ rest ∧
    (w.peers p).buf ++ (w.links l).toClient = rest.flatMap encode ∧ readOn l arr = packetsOf seen
  past : ∀ l, l < w.made → readOn l arr <+: packetsOf (w.links l).conn.written
  unmade : ∀ l, w.made ≤ l → pushedOn l tr = [] ∧ readOn l arr = []
  buf : ∀ p, tsDecode (w.peers p).buf = none

theorem Fed.init (e : E) : Fed (World.init e) ([] : List (Obs I)) [] :=
  ⟨fun l h => absurd h (Nat.not_lt_zero _), (fun p l h => nomatch h), fun l h => absurd h (Nat.not_lt_zero _), fun l _ => ⟨rfl, rfl⟩,
    fun p => rfl⟩

/-- Only connection `l` changes. -/
theorem Fed.link {w w' : World E} {tr new : List (Obs I)} {arr : List (Nat × Bytes)} (h : Fed w tr arr) (l : Nat) (k : Link E)
    (hw : w'.links = upd w.links l k) (hpe : ∀ p, (w'.peers p).link = (w.peers p).link ∧ (w'.peers p).buf = (w.peers p).buf)
    (hm : w'.made = w.made) (hn : ∀ l', l' ≠ l → pushedOn l' new = []) (hu : w.made ≤ l → pushedOn l new = [])
    (hc : packetsOf k.conn.written ++ (packetsOf k.conn.outbound ++ k.conn.pushes) =
      packetsOf (w.links l).conn.written ++ (packetsOf (w.links l).conn.outbound ++ (w.links l).conn.pushes) ++ pushedOn l new)
    (hx : ∃ more, k.conn.written = (w.links l).conn.written ++ more ∧ k.toClient = (w.links l).toClient ++ more.flatMap encode) :
    Fed w' (tr ++ new) arr := by
  obtain ⟨more, hx1, hx2⟩ := hx
  refine ⟨?_, ?_, ?_, ?_, fun p => by rw [(hpe p).2]; exact h.buf p⟩
  · intro l' hl'
    rw [hm] at hl'
    rw [hw, pushedOn_append]
    by_cases hl : l' = l
    · subst hl; rw [upd_same, hc, h.chan l' hl']
    · rw [upd_other _ _ hl, hn l' hl, List.append_nil]; exact h.chan l' hl'
  · intro p l' hp
    rw [(hpe p).1] at hp
    rw [(hpe p).2, hw]
    obtain ⟨seen, rest, h1, h2, h3⟩ := h.read p l' hp
    by_cases hl : l' = l
    · subst hl
      rw [upd_same]
      exact ⟨seen, rest ++ more, by rw [hx1, h1, List.append_assoc], by rw [hx2, ← List.append_assoc, h2, List.flatMap_append], h3⟩
    · rw [upd_other _ _ hl]; exact ⟨seen, rest, h1, h2, h3⟩
  · intro l' hl'
    rw [hm] at hl'
    rw [hw]
    by_cases hl : l' = l
    · subst hl; rw [upd_same, hx1, packetsOf_append]; exact (h.past l' hl').trans (List.prefix_append _ _)
    · rw [upd_other _ _ hl]; exact h.past l' hl'
  · intro l' hl'
    rw [hm] at hl'
    obtain ⟨h1, h2⟩ := h.unmade l' hl'
    rw [pushedOn_append, h1, h2]
    by_cases hl : l' = l
    · subst hl; exact ⟨hu hl', rfl⟩
    · exact ⟨hn l' hl, rfl⟩

/-- Only a client changes: it keeps its connection, or gives it up. -/
theorem Fed.peer {w w' : World E} {tr new : List (Obs I)} {arr : List (Nat × Bytes)} (h : Fed w tr arr) (p : Nat) (x : Peer)
    (hw : w'.links = w.links) (hpe : w'.peers = upd w.peers p x) (hm : w'.made = w.made) (hn : ∀ l, pushedOn l new = [])
    (hx : ∀ l, x.link = some l → (w.peers p).link = some l ∧ x.buf = (w.peers p).buf) (hb : x.buf = (w.peers p).buf ∨ x.buf = []) :
    Fed w' (tr ++ new) arr := by
  refine ⟨?_, ?_, ?_, ?_, ?_⟩
  · intro l hl
    rw [hm] at hl
    rw [hw, pushedOn_append, hn, List.append_nil]; exact h.chan l hl
  · intro q l hq
    rw [hpe] at hq ⊢
    rw [hw]
    by_cases hqp : q = p
    · subst hqp
      rw [upd_same] at hq ⊢
      obtain ⟨h1, h2⟩ := hx l hq
      rw [h2]; exact h.read q l h1
    · rw [upd_other _ _ hqp] at hq ⊢; exact h.read q l hq
  · intro l hl
    rw [hm] at hl
    rw [hw]; exact h.past l hl
  · intro l hl
    rw [hm] at hl
    rw [pushedOn_append, hn, List.append_nil]; exact h.unmade l hl
  · intro q
    rw [hpe]
    by_cases hqp : q = p
    · subst hqp
      rw [upd_same]
      rcases hb with hb | hb
      · rw [hb]; exact h.buf q
      · rw [hb]; rfl
    · rw [upd_other _ _ hqp]; exact h.buf q

theorem pushedOn_cons_called (l p tag : Nat) (cmd : Cmd) (s : Option (Nat × Nat)) (tr : List (Obs I)) :
    pushedOn l (.called p tag cmd s :: tr) = pushedOn l tr := rfl

theorem Fed.lib {pr : Printer} {srv : Server E I} {w : World E} {tr : List (Obs I)} {arr : List (Nat × Bytes)} (h : Fed w tr arr)
    (hi : Inv pr w tr) {p : Nat} {e : CEv} :
    Fed (w.step pr srv (.lib p e)).1 (tr ++ (w.step pr srv (.lib p e)).2) arr := by
  have hP := hi.peers p
  simp only [World.step]
  cases hout : outside e with
  | false => simpa using h
  | true =>
    simp only [Bool.not_true, Bool.false_eq_true, if_false]
    split
    · next hop =>
      obtain ⟨rfl, hcg⟩ := hop
      have hln : (w.peers p).link = none := by
        cases hl : (w.peers p).link with
        | none => rfl
        | some l => have := hP.sock.mpr ⟨l, hl⟩; rw [hcg] at this; cases this
      refine ⟨?_, ?_, ?_, ?_, ?_⟩
      · intro l hl
        dsimp only at hl ⊢
        rw [pushedOn_append, pushedOn_settle, List.append_nil]
        by_cases hlm : l = w.made
        · subst hlm; rw [upd_same, (h.unmade w.made (Nat.le_refl _)).1]; rfl
        · rw [upd_other _ _ hlm]; exact h.chan l (by omega)
      · intro q l hq
        dsimp only at hq ⊢
        by_cases hqp : q = p
        · subst hqp
          rw [upd_same] at hq ⊢
          injection hq with hq
          subst hq
          rw [upd_same]
          refine ⟨[], [], rfl, ?_, (h.unmade w.made (Nat.le_refl _)).2⟩
          rw [hP.buf hln]; rfl
        · rw [upd_other _ _ hqp] at hq ⊢
          have := ((hi.peers q).client l hq).1
          rw [upd_other _ _ (by omega)]; exact h.read q l hq
      · intro l hl
        dsimp only at hl ⊢
        by_cases hlm : l = w.made
        · subst hlm; rw [upd_same, (h.unmade w.made (Nat.le_refl _)).2]; exact List.nil_prefix
        · rw [upd_other _ _ hlm]; exact h.past l (by omega)
      · intro l hl
        dsimp only at hl
        rw [pushedOn_append, pushedOn_settle, List.append_nil]
        exact h.unmade l (by omega)
      · intro q
        dsimp only
        by_cases hqp : q = p
        · subst hqp; rw [upd_same]; exact h.buf q
        · rw [upd_other _ _ hqp]; exact h.buf q
    · refine h.peer p _ rfl rfl rfl (fun l => pushedOn_settle ..) ?_ ?_
      · intro l
        unfold Peer.after
        split
        · exact fun hl => ⟨hl, rfl⟩
        · split <;> exact fun hl => nomatch hl
      · unfold Peer.after
        split
        · exact .inl rfl
        · split
          · exact .inr rfl
          · exact .inr rfl
          · exact .inr rfl
          · exact .inl rfl

theorem Fed.write {w : World E} {tr new : List (Obs I)} {arr : List (Nat × Bytes)} (h : Fed w tr arr) (p l n : Nat) (op : UInt8) (body : Bytes)
    (lib : Client) (hn : ∀ l, pushedOn l new = []) :
    Fed (World.write { w with peers := upd w.peers p { w.peers p with lib } } l n op body) (tr ++ new) arr := by
  refine h.link l _ rfl ?_ rfl (fun l' _ => hn l') (fun _ => hn l) (by rw [hn, List.append_nil]) ⟨[], by simp, by simp⟩
  intro q
  simp only [World.write]
  by_cases hq : q = p
  · subst hq; rw [upd_same]; exact ⟨rfl, rfl⟩
  · rw [upd_other _ _ hq]; exact ⟨rfl, rfl⟩

theorem Fed.lib' {w : World E} {tr new : List (Obs I)} {arr : List (Nat × Bytes)} (h : Fed w tr arr) (p : Nat)
    (lib : Client) (hn : ∀ l, pushedOn l new = []) :
    Fed { w with peers := upd w.peers p { w.peers p with lib } } (tr ++ new) arr :=
  h.peer p _ rfl rfl rfl hn (fun _ hl => ⟨hl, rfl⟩) (.inl rfl)

theorem Fed.call {pr : Printer} {srv : Server E I} {w : World E} {tr : List (Obs I)} {arr : List (Nat × Bytes)} (h : Fed w tr arr)
    {p tag T now : Nat} {cmd : Cmd} :
    Fed (w.step pr srv (.call p tag T now cmd)).1 (tr ++ (w.step pr srv (.call p tag T now cmd)).2) arr := by
  simp only [World.step]
  split
  · exact h.lib' p _ (fun _ => rfl)
  · split
    · exact h.write p _ _ _ _ _ (fun l => by rw [pushedOn_cons_called, pushedOn_settle])
    · exact h.lib' p _ (fun l => by rw [pushedOn_cons_called, pushedOn_settle])

theorem Fed.fire {pr : Printer} {srv : Server E I} {w : World E} {tr : List (Obs I)} {arr : List (Nat × Bytes)} (h : Fed w tr arr)
    {p : Nat} {cmd : Cmd} :
    Fed (w.step pr srv (.fire p cmd)).1 (tr ++ (w.step pr srv (.fire p cmd)).2) arr := by
  simp only [World.step]
  split
  · exact h.lib' p _ (fun _ => rfl)
  · split
    · exact h.write p _ _ _ _ _ (fun l => rfl)
    · exact h.lib' p _ (fun l => rfl)

theorem Fed.server {pr : Printer} {srv : Server E I} {w : World E} {tr : List (Obs I)} {arr : List (Nat × Bytes)} (h : Fed w tr arr)
    {l now : Nat} {e : CEvent} (hpl : ∀ b, e = .pushed b → l < w.made) :
    Fed (w.step pr srv (.server l now e)).1 (tr ++ (w.step pr srv (.server l now e)).2) arr := by
  cases e with
  | read f => simpa [World.step] using h
  | complete i =>
    cases hf : (w.links l).conn.running[i]? with
    | none =>
      simp only [World.step, hf]
      refine h.link l _ rfl (fun _ => ⟨rfl, rfl⟩) rfl (fun l' _ => rfl) (fun _ => rfl) ?_ ⟨[], ?_, by simp⟩
      · simp only [Conn.step, hf]; simp [pushedOn]
      · simp [Conn.step, hf]
    | some f =>
      simp only [World.step, hf]
      refine h.link l _ rfl (fun _ => ⟨rfl, rfl⟩) rfl (fun l' _ => rfl) (fun _ => rfl) ?_ ⟨[], ?_, by simp⟩
      · simp only [Conn.step, hf]; simp [pushedOn]
      · simp [Conn.step, hf]
  | spawn =>
    simp only [World.step]
    split
    · simpa using h
    · refine h.link l _ rfl (fun _ => ⟨rfl, rfl⟩) rfl (fun l' _ => rfl) (fun _ => rfl) ?_
        ⟨_, written_prefix (srv.handle l now) { (w.links l).conn with engine := w.engine } .spawn, rfl⟩
      simp only [Conn.step]; split <;> simp [pushedOn]
  | pushed b =>
    simp only [World.step]
    split
    · simpa using h
    · refine h.link l _ rfl (fun _ => ⟨rfl, rfl⟩) rfl ?_ (fun hl => absurd (hpl b rfl) (by omega)) ?_
        ⟨_, written_prefix (srv.handle l now) { (w.links l).conn with engine := w.engine } (.pushed b), rfl⟩
      · intro l' hl'
        simp [pushedOn, Ne.symm hl']
      · simp [Conn.step, pushedOn]
  | bridge =>
    simp only [World.step]
    split
    · simpa using h
    · refine h.link l _ rfl (fun _ => ⟨rfl, rfl⟩) rfl (fun l' _ => rfl) (fun _ => rfl) ?_
        ⟨_, written_prefix (srv.handle l now) { (w.links l).conn with engine := w.engine } .bridge, rfl⟩
      simp only [Conn.step]
      split
      · simp [pushedOn]
      · next hb => rw [hb]; simp [pushedOn, packetsOf_append, packetsOf]
  | write =>
    simp only [World.step]
    split
    · simpa using h
    · refine h.link l _ rfl (fun _ => ⟨rfl, rfl⟩) rfl (fun l' _ => rfl) (fun _ => rfl) ?_
        ⟨_, written_prefix (srv.handle l now) { (w.links l).conn with engine := w.engine } .write, rfl⟩
      simp only [Conn.step]
      split
      · simp [pushedOn]
      · next o rest hb =>
        rw [hb, packetsOf_append]
        show _ = _ ++ (packetsOf ([o] ++ rest) ++ _) ++ []
        rw [packetsOf_append]; simp
  | post i =>
    simp only [World.step]
    split
    · simpa using h
    · refine h.link l _ rfl (fun _ => ⟨rfl, rfl⟩) rfl (fun l' _ => rfl) (fun _ => rfl) ?_
        ⟨_, written_prefix (srv.handle l now) { (w.links l).conn with engine := w.engine } (.post i), rfl⟩
      simp only [Conn.step]
      split
      · simp [pushedOn]
      · simp [pushedOn, packetsOf_append, packetsOf]

theorem Fed.toClient {pr : Printer} {srv : Server E I} {w : World E} {tr : List (Obs I)} {arr : List (Nat × Bytes)} (h : Fed w tr arr)
    (hi : Inv pr w tr) {l n : Nat} :
    Fed (w.step pr srv (.toClient l n)).1 (tr ++ (w.step pr srv (.toClient l n)).2) (arr ++ arriving w (.toClient l n : Ev I)) := by
  simp only [World.step, arriving]
  split
  · next hl =>
    obtain ⟨hlm, _⟩ := (hi.peers (w.links l).peer).client l hl
    obtain ⟨seen, rest, h1, h2, h3⟩ := h.read _ l hl
    rw [← List.take_append_drop n (w.links l).toClient, ← List.append_assoc] at h2
    have hfit : ∀ o ∈ rest, o.Fits := fun o ho => (hi.links l).fits.1 o
      (mem_outs.mpr (.inl (by rw [h1]; exact List.mem_append.mpr (.inr ho))))
    obtain ⟨s2, r2, b1, b2, b3⟩ := tsDrain_sent _ _ rest hfit h2
    have hr : readOn l (arr ++ (pushPackets (tsDrain ((w.peers (w.links l).peer).buf ++ (w.links l).toClient.take n)).1).map (fun b => (l, b))) =
        packetsOf (seen ++ s2) := by
      rw [readOn_append, readOn_same, b2, pushPackets_frames, h3, packetsOf_append]
    have hro : ∀ l', l' ≠ l → readOn l' (arr ++ (pushPackets (tsDrain ((w.peers (w.links l).peer).buf ++ (w.links l).toClient.take n)).1).map (fun b => (l, b))) =
        readOn l' arr := by
      intro l' hl'
      rw [readOn_append, readOn_other (Ne.symm hl'), List.append_nil]
    refine ⟨?_, ?_, ?_, ?_, ?_⟩
    · intro l' hl'
      dsimp only at hl' ⊢
      rw [pushedOn_append, pushedOn_settle, List.append_nil]
      by_cases hll : l' = l
      · subst hll; rw [upd_same]; exact h.chan l' hl'
      · rw [upd_other _ _ hll]; exact h.chan l' hl'
    · intro q l' hq
      dsimp only at hq ⊢
      by_cases hqp : q = (w.links l).peer
      · subst hqp
        rw [upd_same] at hq ⊢
        have hll : l' = l := by
          have hq' : (w.peers (w.links l).peer).link = some l' := hq
          rw [hl] at hq'; injection hq' with hx; exact hx.symm
        subst hll
        rw [upd_same, hr]
        exact ⟨seen ++ s2, r2, by rw [List.append_assoc, ← b1]; exact h1, b3, rfl⟩
      · rw [upd_other _ _ hqp] at hq ⊢
        have hll : l' ≠ l := by
          rintro rfl
          exact hqp (((hi.peers q).client l' hq).2.1).symm
        rw [upd_other _ _ hll, hro l' hll]
        exact h.read q l' hq
    · intro l' hl'
      dsimp only at hl' ⊢
      by_cases hll : l' = l
      · subst hll
        rw [upd_same, hr]
        show _ <+: packetsOf (w.links l').conn.written
        rw [h1, b1, ← List.append_assoc, packetsOf_append _ r2]
        exact List.prefix_append _ _
      · rw [upd_other _ _ hll, hro l' hll]; exact h.past l' hl'
    · intro l' hl'
      dsimp only at hl'
      rw [pushedOn_append, pushedOn_settle, List.append_nil, hro l' (by omega)]
      exact h.unmade l' hl'
    · intro q
      dsimp only
      by_cases hqp : q = (w.links l).peer
      · subst hqp; rw [upd_same]; exact tsDrain_idem _
      · rw [upd_other _ _ hqp]; exact h.buf q
  · simpa using h

/-- A push is for a connection that has been made. -/
def Placed (w : World E) : Ev I → Prop
  | .server l _ (.pushed _) => l < w.made
  | _ => True

theorem Fed.step {pr : Printer} {srv : Server E I} {w : World E} {tr : List (Obs I)} {arr : List (Nat × Bytes)} (h : Fed w tr arr)
    (hi : Inv pr w tr) (e : Ev I) (hpl : Placed w e) :
    Fed (w.step pr srv e).1 (tr ++ (w.step pr srv e).2) (arr ++ arriving w e) := by
  cases e with
  | lib p e => simpa [arriving] using h.lib (srv := srv) hi
  | call p tag T now cmd => simpa [arriving] using h.call (pr := pr) (srv := srv)
  | fire p cmd => simpa [arriving] using h.fire (pr := pr) (srv := srv)
  | toServer l n =>
    simp only [arriving, List.append_nil, World.step]
    split
    · simpa using h
    · refine h.link l _ rfl (fun _ => ⟨rfl, rfl⟩) rfl (fun l' _ => rfl) (fun _ => rfl) ?_ ⟨[], ?_, by simp⟩
      · simp [handOn_eq, pushedOn]
      · simp [handOn_eq]
  | server l now e =>
    have := h.server (pr := pr) (srv := srv) (l := l) (now := now) (e := e) (fun b hb => by subst hb; exact hpl)
    simpa [arriving] using this
  | drop l =>
    simp only [arriving, List.append_nil, World.step]
    have := h.link (new := []) l { w.links l with ended := true } (w' := { w with links := upd w.links l { w.links l with ended := true } })
      rfl (fun _ => ⟨rfl, rfl⟩) rfl (fun l' _ => rfl) (fun _ => rfl) (by simp [pushedOn]) ⟨[], by simp, by simp⟩
    simpa using this
  | toClient l n => exact h.toClient hi
  | tick x =>
    simp only [arriving, List.append_nil, World.step]
    refine ⟨?_, h.read, h.past, ?_, h.buf⟩
    · intro l hl; rw [pushedOn_append]; show _ = _ ++ []; rw [List.append_nil]; exact h.chan l hl
    · intro l hl; rw [pushedOn_append]; show _ ++ [] = [] ∧ _; rw [List.append_nil]; exact h.unmade l hl

end Verif.Rpc
