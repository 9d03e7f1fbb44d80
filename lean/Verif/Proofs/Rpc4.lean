import Verif.Proofs.Rpc3

/-!
# Lemmas about clients, network and server together: the invariant
-/

namespace Verif.Rpc

open Verif Verif.Wire Verif.Sdk

variable {E I : Type}

/-- The state of a client agrees with the trace and with its connection. -/
structure PeerInv (pr : Printer) (p : Nat) (x : Peer) (links : Nat → Link E) (made : Nat) (tr : List (Obs I)) : Prop where
  sound : Sound x.lib
  sock : x.lib.socket = .opened ↔ ∃ l, x.link = some l
  buf : x.link = none → x.buf = []
  pend : ∀ id e, (id, e) ∈ x.lib.pending → ∃ l n cmd, x.link = some l ∧ id = ((n : Nat) : Int) ∧ Obs.called p e.tag cmd (some (l, n)) ∈ tr
  num : ∃ k, k ≤ tr.countP (Obs.isBy p) ∧ Numbered x.lib k ∧ ∀ l, l < made → (links l).peer = p → ∀ f ∈ sentOn pr l tr, f.id ≤ k
  client : ∀ l, x.link = some l → l < made ∧ (links l).peer = p ∧
    ∃ seen rest, (links l).conn.written = seen ++ rest ∧ x.buf ++ (links l).toClient = rest.flatMap encode

structure Inv (pr : Printer) (w : World E) (tr : List (Obs I)) : Prop where
  links : ∀ l, LinkInv pr l (w.links l) tr
  unmade : ∀ l, w.made ≤ l → sentOn pr l tr = [] ∧ execOn l tr = []
  peers : ∀ p, PeerInv pr p (w.peers p) w.links w.made tr
  sorted : ∀ l, (sentOn pr l tr).Pairwise (fun f g => f.id < g.id)
  ok : ∀ l, ∀ f ∈ sentOn pr l tr, ReqOk f

theorem Inv.init (pr : Printer) (e : E) : Inv pr (World.init e) ([] : List (Obs I)) := by
  refine ⟨fun l => ?_, fun l _ => ⟨rfl, rfl⟩, fun p => ?_, fun l => List.Pairwise.nil, fun l f hf => nomatch hf⟩
  · refine ⟨⟨[], rfl, fun _ => rfl⟩, List.Perm.refl _, (fun id r h => nomatch h), (fun o h => nomatch h), (fun o h => nomatch h)⟩
  · refine ⟨Sound.init, ⟨(fun h => nomatch h), (fun ⟨l, h⟩ => nomatch h)⟩, (fun _ => rfl), (fun id e h => nomatch h),
      ⟨0, Nat.zero_le _, numbered_init, fun l h => absurd h (Nat.not_lt_zero _)⟩, (fun l h => nomatch h)⟩

theorem countP_append_le {α : Type} (p : α → Bool) (a b : List α) : a.countP p ≤ (a ++ b).countP p := by
  rw [List.countP_append]; omega

/-- A client that does nothing, while others do. -/
theorem PeerInv.frame {pr : Printer} {p : Nat} {x : Peer} {links links' : Nat → Link E} {made made' : Nat} {tr new : List (Obs I)}
    (h : PeerInv pr p x links made tr) (hm : made ≤ made')
    (hp : ∀ l, l < made → (links' l).peer = (links l).peer)
    (hn : ∀ l, made ≤ l → l < made' → (links' l).peer = p → sentOn pr l tr = [])
    (hs : ∀ l, l < made' → (links' l).peer = p → sentOn pr l new = [])
    (hc : ∀ l, x.link = some l → ∃ seen rest, (links' l).conn.written = seen ++ rest ∧ x.buf ++ (links' l).toClient = rest.flatMap encode) :
    PeerInv pr p x links' made' (tr ++ new) := by
  refine ⟨h.sound, h.sock, h.buf, ?_, ?_, ?_⟩
  · intro id e he
    obtain ⟨l, n, cmd, h1, h2, h3⟩ := h.pend id e he
    exact ⟨l, n, cmd, h1, h2, List.mem_append.mpr (.inl h3)⟩
  · obtain ⟨k, h1, h2, h3⟩ := h.num
    refine ⟨k, Nat.le_trans h1 (countP_append_le _ _ _), h2, ?_⟩
    intro l hl hpe f hf
    rw [sentOn_append, hs l hl hpe, List.append_nil] at hf
    by_cases hlm : l < made
    · exact h3 l hlm ((hp l hlm).symm.trans hpe) f hf
    · rw [hn l (by omega) hl hpe] at hf; cases hf
  · intro l hl
    obtain ⟨h1, h2, _⟩ := h.client l hl
    exact ⟨by omega, (hp l h1).trans h2, hc l hl⟩

theorem PeerInv.same {pr : Printer} {p : Nat} {x : Peer} {links links' : Nat → Link E} {made : Nat} {tr new : List (Obs I)}
    (h : PeerInv pr p x links made tr)
    (hp : ∀ l, (links' l).peer = (links l).peer)
    (hs : ∀ l, sentOn pr l new = [])
    (hc : ∀ l, ∃ more, (links' l).conn.written = (links l).conn.written ++ more ∧ (links' l).toClient = (links l).toClient ++ more.flatMap encode) :
    PeerInv pr p x links' made (tr ++ new) := by
  refine h.frame (Nat.le_refl _) (fun l _ => hp l) (fun l h1 h2 => by omega) (fun l _ _ => hs l) ?_
  intro l hl
  obtain ⟨_, _, seen, rest, h1, h2⟩ := h.client l hl
  obtain ⟨more, h3, h4⟩ := hc l
  refine ⟨seen, rest ++ more, by rw [h3, h1, List.append_assoc], ?_⟩
  rw [h4, ← List.append_assoc, h2, List.flatMap_append]

@[simp] theorem upd_same {α : Type} (f : Nat → α) (i : Nat) (x : α) : upd f i x i = x := by simp [upd]
theorem upd_other {α : Type} (f : Nat → α) {i j : Nat} (x : α) (h : j ≠ i) : upd f i x j = f j := by simp [upd, h]

/-- Only connection `l` changes, and no request is written. -/
theorem Inv.link {pr : Printer} {w w' : World E} {tr new : List (Obs I)} (h : Inv pr w tr) (l : Nat) (k : Link E)
    (hw : w'.links = upd w.links l k) (hpe : w'.peers = w.peers) (hm : w'.made = w.made)
    (hs : ∀ l, sentOn pr l new = []) (he : ∀ l', l' ≠ l → execOn l' new = []) (hu : w.made ≤ l → execOn l new = [])
    (hk : LinkInv pr l k (tr ++ new)) (hp : k.peer = (w.links l).peer)
    (hc : ∃ more, k.conn.written = (w.links l).conn.written ++ more ∧ k.toClient = (w.links l).toClient ++ more.flatMap encode) :
    Inv pr w' (tr ++ new) := by
  have hsent : ∀ l, sentOn pr l (tr ++ new) = sentOn pr l tr := fun l => by rw [sentOn_append, hs, List.append_nil]
  refine ⟨?_, ?_, ?_, ?_, ?_⟩
  · intro l'
    rw [hw]
    by_cases hl : l' = l
    · subst hl; rw [upd_same]; exact hk
    · rw [upd_other _ _ hl]; exact (h.links l').mono (hs l') (he l' hl)
  · intro l' hl'
    rw [hm] at hl'
    rw [hsent, execOn_append]
    refine ⟨(h.unmade l' hl').1, ?_⟩
    rw [(h.unmade l' hl').2]
    by_cases hl : l' = l
    · subst hl; exact hu hl'
    · exact he l' hl
  · intro p
    rw [hw, hpe, hm]
    refine (h.peers p).same ?_ hs ?_
    · intro l'
      by_cases hl : l' = l
      · subst hl; rw [upd_same]; exact hp
      · rw [upd_other _ _ hl]
    · intro l'
      by_cases hl : l' = l
      · subst hl; rw [upd_same]; exact hc
      · rw [upd_other _ _ hl]; exact ⟨[], by simp, by simp⟩
  · intro l'; rw [hsent]; exact h.sorted l'
  · intro l'; rw [hsent]; exact h.ok l'

/-- A frame that is being handled has been sent. -/
theorem Inv.running_sent {pr : Printer} {w : World E} {tr : List (Obs I)} (h : Inv pr w tr) {l i : Nat} {f : Frame}
    (hf : (w.links l).conn.running[i]? = some f) : f ∈ sentOn pr l tr := by
  have h1 : f ∈ (w.links l).reader.frames := by
    rw [← (h.links l).tasks.mem_iff]
    exact List.mem_append.mpr (.inl (List.mem_append.mpr (.inr (List.mem_of_getElem? hf))))
  obtain ⟨rest, h2, _⟩ := (h.links l).wire
  rw [h2]
  exact List.mem_append.mpr (.inl h1)

/-- A request is written on the connection of client `p`. -/
theorem Inv.written {pr : Printer} {w w' : World E} {tr : List (Obs I)} (h : Inv pr w tr) {p l n : Nat} {cmd : Cmd} {op : UInt8}
    {body : Bytes} {new : List (Obs I)} {lib : Client} (hl : (w.peers p).link = some l)
    (hw : w'.links = upd w.links l { w.links l with toServer := (w.links l).toServer ++ tsFinish n op body })
    (hpe : w'.peers = upd w.peers p { w.peers p with lib })
    (hm : w'.made = w.made)
    (hb : tsBody pr cmd = some (op, body)) (hbl : body.length < 2 ^ 32)
    (hs : ∀ l', sentOn pr l' new = if l' = l then [⟨1, op, n, body⟩] else []) (he : ∀ l', execOn l' new = [])
    (hcnt : new.countP (Obs.isBy p) = 1) (hids : (tr ++ new).countP (Obs.isBy p) < 2 ^ 31 - 1)
    (hn : (w.peers p).lib.nextId = (n : Int)) (hnext : lib.nextId = tsNextId (w.peers p).lib.nextId)
    (hsound : Sound lib) (hsock : lib.socket = (w.peers p).lib.socket) (hwf : MWF lib.pending)
    (hkeys : ∀ id ∈ mkeys lib.pending, id = (n : Int) ∨ id ∈ mkeys (w.peers p).lib.pending)
    (hpend : ∀ id e, (id, e) ∈ lib.pending → (id, e) ∈ (w.peers p).lib.pending ∨ id = (n : Int) ∧ ∃ c, Obs.called p e.tag c (some (l, n)) ∈ new) :
    Inv pr w' (tr ++ new) := by
  have hP := h.peers p
  obtain ⟨hlm, hlp, hcl⟩ := hP.client l hl
  obtain ⟨k, hk1, hk2, hk3⟩ := hP.num
  rw [List.countP_append, hcnt] at hids
  have hid := C63_ids_partial k (by omega)
  have hnk : n = k + 1 := by
    have := hk2.1
    rw [hn, hid.1] at this
    omega
  have hok : ReqOk ⟨1, op, n, body⟩ := ⟨rfl, by show n < 2 ^ 32; omega, hbl⟩
  have hnum : Numbered lib (k + 1) := by
    refine ⟨?_, hwf, ?_⟩
    · rw [hnext, hk2.1]; rfl
    · intro id hi
      rcases hkeys id hi with rfl | hi
      · exact ⟨k, by omega, by rw [← hn]; exact hk2.1⟩
      · obtain ⟨j, hj, hji⟩ := hk2.2.2 id hi
        exact ⟨j, by omega, hji⟩
  refine ⟨?_, ?_, ?_, ?_, ?_⟩
  · intro l'
    rw [hw]
    by_cases hll : l' = l
    · subst hll
      rw [upd_same]
      exact (h.links l').write hb (by rw [hs, if_pos rfl]) (he l')
    · rw [upd_other _ _ hll]
      exact (h.links l').mono (by rw [hs, if_neg hll]) (he l')
  · intro l' hl'
    rw [hm] at hl'
    rw [sentOn_append, execOn_append, hs, he, if_neg (by omega), (h.unmade l' hl').1, (h.unmade l' hl').2]
    exact ⟨rfl, rfl⟩
  · intro q
    rw [hw, hpe, hm]
    have hlinkeq : ∀ l', (upd w.links l { w.links l with toServer := (w.links l).toServer ++ tsFinish n op body } l').peer = (w.links l').peer
        ∧ (upd w.links l { w.links l with toServer := (w.links l).toServer ++ tsFinish n op body } l').conn.written = (w.links l').conn.written
        ∧ (upd w.links l { w.links l with toServer := (w.links l).toServer ++ tsFinish n op body } l').toClient = (w.links l').toClient := by
      intro l'
      by_cases hll : l' = l
      · subst hll; rw [upd_same]; exact ⟨rfl, rfl, rfl⟩
      · rw [upd_other _ _ hll]; exact ⟨rfl, rfl, rfl⟩
    by_cases hq : q = p
    · subst hq
      rw [upd_same]
      refine ⟨hsound, ?_, hP.buf, ?_, ?_, ?_⟩
      · show lib.socket = .opened ↔ _
        rw [hsock]; exact hP.sock
      · intro id e hie
        rcases hpend id e hie with hie | ⟨rfl, c, hc⟩
        · obtain ⟨l', n', c, h1, h2, h3⟩ := hP.pend id e hie
          exact ⟨l', n', c, h1, h2, List.mem_append.mpr (.inl h3)⟩
        · exact ⟨l, n, c, hl, rfl, List.mem_append.mpr (.inr hc)⟩
      · refine ⟨k + 1, ?_, hnum, ?_⟩
        · rw [List.countP_append, hcnt]; omega
        · intro l' hl' hp' f hf
          rw [sentOn_append, hs] at hf
          rcases List.mem_append.mp hf with hf | hf
          · have := hk3 l' hl' ((hlinkeq l').1.symm.trans hp') f hf
            omega
          · split at hf
            · rw [List.mem_singleton.mp hf]; show n ≤ k + 1; omega
            · cases hf
      · intro l' hl'
        obtain ⟨h1, h2, seen, rest, h3, h4⟩ := hP.client l' hl'
        exact ⟨h1, (hlinkeq l').1.trans h2, seen, rest, (hlinkeq l').2.1.trans h3, by rw [(hlinkeq l').2.2]; exact h4⟩
    · rw [upd_other _ _ hq]
      refine (h.peers q).frame (Nat.le_refl _) (fun l' _ => (hlinkeq l').1) (fun l' h1 h2 => by omega) ?_ ?_
      · intro l' _ hp'
        rw [hs, if_neg]
        intro hll
        subst hll
        rw [(hlinkeq l').1, hlp] at hp'
        exact hq hp'.symm
      · intro l' hl'
        obtain ⟨h1, h2, seen, rest, h3, h4⟩ := (h.peers q).client l' hl'
        exact ⟨seen, rest, (hlinkeq l').2.1.trans h3, by rw [(hlinkeq l').2.2]; exact h4⟩
  · intro l'
    rw [sentOn_append, hs]
    split
    · next hll =>
      subst hll
      rw [List.pairwise_append]
      refine ⟨h.sorted l', List.pairwise_singleton _ _, ?_⟩
      intro f hf g hg
      rw [List.mem_singleton.mp hg]
      have := hk3 l' hlm hlp f hf
      show f.id < n
      omega
    · rw [List.append_nil]; exact h.sorted l'
  · intro l' f hf
    rw [sentOn_append, hs] at hf
    rcases List.mem_append.mp hf with hf | hf
    · exact h.ok l' f hf
    · split at hf
      · rw [List.mem_singleton.mp hf]; exact hok
      · cases hf

/-- Only the library of client `p` changes, and it takes an id without writing, or none. -/
theorem Inv.unwritten {pr : Printer} {w w' : World E} {tr : List (Obs I)} (h : Inv pr w tr) {p : Nat}
    {new : List (Obs I)} {x : Peer} (hw : w'.links = w.links) (hpe : w'.peers = upd w.peers p x) (hm : w'.made = w.made)
    (hs : ∀ l', sentOn pr l' new = []) (he : ∀ l', execOn l' new = [])
    (hsound : Sound x.lib) (hsock : x.lib.socket = .opened ↔ ∃ l, x.link = some l)
    (hbuf : x.link = none → x.buf = [])
    (hlink : ∀ l, x.link = some l → (w.peers p).link = some l ∧ x.buf = (w.peers p).buf)
    (hnum : ∀ k, Numbered (w.peers p).lib k → Numbered x.lib k ∨ Numbered x.lib (k + 1) ∧ new.countP (Obs.isBy p) = 1)
    (hpend : ∀ id e, (id, e) ∈ x.lib.pending → (id, e) ∈ (w.peers p).lib.pending ∧ x.link = (w.peers p).link) :
    Inv pr w' (tr ++ new) := by
  have hsent : ∀ l, sentOn pr l (tr ++ new) = sentOn pr l tr := fun l => by rw [sentOn_append, hs, List.append_nil]
  have hP := h.peers p
  refine ⟨?_, ?_, ?_, ?_, ?_⟩
  · intro l; rw [hw]; exact (h.links l).mono (hs l) (he l)
  · intro l hl
    rw [hm] at hl
    rw [hsent, execOn_append, he, (h.unmade l hl).1, (h.unmade l hl).2]
    exact ⟨rfl, rfl⟩
  · intro q
    rw [hw, hpe, hm]
    by_cases hq : q = p
    · subst hq
      rw [upd_same]
      refine ⟨hsound, hsock, hbuf, ?_, ?_, ?_⟩
      · intro id e hie
        obtain ⟨hie, hl⟩ := hpend id e hie
        obtain ⟨l', n', c, h1, h2, h3⟩ := hP.pend id e hie
        exact ⟨l', n', c, hl.trans h1, h2, List.mem_append.mpr (.inl h3)⟩
      · obtain ⟨k, h1, h2, h3⟩ := hP.num
        rcases hnum k h2 with h4 | ⟨h4, h5⟩
        · refine ⟨k, Nat.le_trans h1 (countP_append_le _ _ _), h4, ?_⟩
          intro l hl hp f hf
          rw [hsent] at hf
          exact h3 l hl hp f hf
        · refine ⟨k + 1, by rw [List.countP_append, h5]; omega, h4, ?_⟩
          intro l hl hp f hf
          rw [hsent] at hf
          have := h3 l hl hp f hf
          omega
      · intro l hl
        obtain ⟨h1, h2⟩ := hlink l hl
        rw [h2]
        exact hP.client l h1
    · rw [upd_other _ _ hq]
      exact (h.peers q).same (fun _ => rfl) hs (fun l => ⟨[], by simp, by simp⟩)
  · intro l'; rw [hsent]; exact h.sorted l'
  · intro l'; rw [hsent]; exact h.ok l'

end Verif.Rpc
