import Verif.Proofs.Rpc7

/-!
# Lemmas about clients, network and server together: nothing is lost
-/

namespace Verif.Rpc

open Verif Verif.Wire Verif.Sdk

variable {E I : Type}

/-! ### Bytes -/

theorem decode_encReq {max : Nat} {g : Frame} (h : ReqOk g) (hm : g.payload.length ≤ max) (t : Bytes) :
    decode max (encReq g ++ t) = .frame g t := by
  have := C01_request g.id g.op g.payload t max h.2.1 h.2.2 hm
  rw [show encReq g = tsFinish g.id g.op g.payload from rfl, this]
  obtain ⟨h1, _⟩ := h
  cases g; simp only at h1; subst h1; rfl

theorem drain_noerr (max : Nat) (b : Bytes) : ∀ (t : Bytes) (fs : List Frame), (∀ f ∈ fs, ReqOk f ∧ f.payload.length ≤ max) →
    b ++ t = fs.flatMap encReq → (drain max b).err = false := by
  induction b using drain_ind (max := max) with
  | h0 b hd => intro t fs hok h; rw [drain_eq, hd]
  | h1 b hd =>
    intro t fs hok h
    have ha := (decode_append (max := max) (a := b) t).2 hd
    cases fs with
    | nil =>
      simp only [List.flatMap_nil, List.append_eq_nil_iff] at h
      rw [h.1] at hd; cases hd
    | cons g gs =>
      rw [h, List.flatMap_cons, decode_encReq (hok g (List.mem_cons_self ..)).1 (hok g (List.mem_cons_self ..)).2] at ha
      cases ha
  | h2 b f rest hd ih =>
    intro t fs hok h
    have ha := (decode_append (max := max) (a := b) t).1 f rest hd
    cases fs with
    | nil =>
      simp only [List.flatMap_nil, List.append_eq_nil_iff] at h
      rw [h.1] at hd; cases hd
    | cons g gs =>
      rw [h, List.flatMap_cons, decode_encReq (hok g (List.mem_cons_self ..)).1 (hok g (List.mem_cons_self ..)).2] at ha
      injection ha with _ ha
      rw [drain_eq, hd]
      exact ih t gs (fun x hx => hok x (List.mem_cons_of_mem _ hx)) ha.symm

/-- All that was written has been read when no bytes are left and the buffer holds no frame. -/
theorem read_all {max : Nat} {fs : List Frame} (hok : ∀ f ∈ fs, ReqOk f ∧ f.payload.length ≤ max) {buf : Bytes}
    (h : buf ++ [] = fs.flatMap encReq) (hd : decode max buf = .need) : fs = [] := by
  cases fs with
  | nil => rfl
  | cons g gs =>
    rw [List.append_nil] at h
    rw [h, List.flatMap_cons, decode_encReq (hok g (List.mem_cons_self ..)).1 (hok g (List.mem_cons_self ..)).2] at hd
    cases hd

theorem read_all_ts {os : List Outbound} (hok : ∀ o ∈ os, o.Fits) {buf : Bytes} (h : buf ++ [] = os.flatMap encode)
    (hd : tsDecode buf = none) : os = [] := by
  cases os with
  | nil => rfl
  | cons o os =>
    rw [List.append_nil] at h
    rw [h, List.flatMap_cons, (C01_round_trip o (hok o (List.mem_cons_self ..)) (os.flatMap encode)).2] at hd
    cases hd

theorem tsDrain_idem (b : Bytes) : tsDecode (tsDrain b).2 = none := by
  induction b using tsDrain_ind with
  | h0 b hd => rw [tsDrain_none hd]; exact hd
  | h2 b f rest hd ih => rw [tsDrain_some hd]; exact ih

/-! ### Requests that wait -/

/-- A step outside requests drops a request that waits only by settling it, or by closing the socket. -/
theorem outside_kept {c : Client} {e : CEv} (h : outside e = true) (ho : (c.step e).1.socket = .opened) {id : Int} {x : Pend}
    (hx : (id, x) ∈ c.pending) : (id, x) ∈ (c.step e).1.pending ∨ ∃ o, (x.tag, o) ∈ (c.step e).2 := by
  cases e with
  | connect => left; simp only [Client.step] at ho ⊢; split <;> exact hx
  | opened => left; simp only [Client.step] at ho ⊢; split <;> (try split) <;> exact hx
  | refused =>
    left
    simp only [Client.step] at ho ⊢
    split at ho
    · split at ho <;> (simp only [cleanup_socket] at ho; cases ho)
    · exact hx
  | lost =>
    left
    simp only [Client.step] at ho ⊢
    split at ho
    · simp only [cleanup_socket] at ho; cases ho
    · exact hx
  | timer => left; simp only [Client.step] at ho ⊢; split <;> exact hx
  | send => cases h
  | fire => cases h
  | response => cases h
  | sweep now =>
    simp only [Client.step]
    split
    · by_cases hd : x.deadline < now
      · right
        exact ⟨_, List.mem_map.mpr ⟨(id, x), List.mem_filter.mpr ⟨hx, by simpa using hd⟩, rfl⟩⟩
      · left
        exact List.mem_filter.mpr ⟨hx, by simpa using hd⟩
    · exact .inl hx
  | disconnect => cases ho

theorem response_kept (c : Client) (id' : Nat) (st : UInt8) (d : Bytes) {id : Int} {x : Pend} (hx : (id, x) ∈ c.pending) (hw : MWF c.pending) :
    (id, x) ∈ (c.step (.response id' st d)).1.pending ∨ ∃ o, (x.tag, o) ∈ (c.step (.response id' st d)).2 := by
  simp only [Client.step]
  split
  · split
    · next p hp =>
      by_cases hi : id = (id' : Int)
      · right
        subst hi
        have : mget c.pending (id' : Int) = some x := hw.mem_iff.mp hx
        rw [hp] at this
        injection this with this
        subst this
        exact ⟨_, List.mem_singleton.mpr rfl⟩
      · left
        exact List.mem_filter.mpr ⟨hx, by simpa using hi⟩
    · exact .inl hx
  · exact .inl hx

theorem response_gone (c : Client) (id' : Nat) (st : UInt8) (d : Bytes) (ho : c.socket = .opened) :
    (id' : Int) ∉ mkeys (c.step (.response id' st d)).1.pending := by
  simp only [Client.step, ho]
  split
  · intro hm
    rw [mkeys_mdel] at hm
    have := (List.mem_filter.mp hm).2
    simp at this
  · next hn =>
    intro hm
    rw [← mget_isSome, hn] at hm
    cases hm

theorem mkeys_mono {a b : List (Int × Pend)} (h : ∀ x ∈ a, x ∈ b) {id : Int} (hi : id ∈ mkeys a) : id ∈ mkeys b := by
  obtain ⟨x, hx, rfl⟩ := List.mem_map.mp hi
  exact List.mem_map.mpr ⟨x, h x hx, rfl⟩

/-- A chunk of answers: what waited and does not any more was settled, and no request that was answered waits. -/
theorem chunk_kept (fs : List Frame) : ∀ (c : Client), MWF c.pending → c.socket = .opened →
    (∀ id x, (id, x) ∈ c.pending → (id, x) ∈ (c.run (responses fs)).pending ∨ ∃ o, (x.tag, o) ∈ c.outcomes (responses fs)) ∧
    ∀ f ∈ fs, f.ftype = 2 → (f.id : Int) ∉ mkeys (c.run (responses fs)).pending := by
  induction fs with
  | nil => intro c _ _; exact ⟨fun id x hx => .inl hx, fun f hf => nomatch hf⟩
  | cons g fs ih =>
    intro c hw ho
    unfold responses
    split
    · next hg =>
      have hfew := fewer_response c g.id g.op g.payload
      have hw' : MWF (c.step (.response g.id g.op g.payload)).1.pending := by
        simp only [Client.step]
        split
        · split
          · exact hw.mdel _
          · exact hw
        · exact hw
      obtain ⟨h1, h2⟩ := ih (c.step (.response g.id g.op g.payload)).1 hw' (hfew.socket.trans ho)
      constructor
      · intro id x hx
        rcases response_kept c g.id g.op g.payload hx hw with h3 | ⟨o, h3⟩
        · rcases h1 id x h3 with h4 | ⟨o, h4⟩
          · exact .inl h4
          · exact .inr ⟨o, List.mem_append.mpr (.inr h4)⟩
        · exact .inr ⟨o, List.mem_append.mpr (.inl h3)⟩
      · intro f hf ht hm
        rcases List.mem_cons.mp hf with rfl | hf
        · exact response_gone c f.id f.op f.payload ho (mkeys_mono (fewer_responses _ fs).pending hm)
        · exact h2 f hf ht hm
    · next hg =>
      obtain ⟨h1, h2⟩ := ih c hw ho
      refine ⟨h1, ?_⟩
      intro f hf ht
      rcases List.mem_cons.mp hf with rfl | hf
      · exact absurd ht hg
      · exact h2 f hf ht

/-! ### The invariant -/

structure Kept (srv : Server E I) (w : World E) (tr : List (Obs I)) : Prop where
  need : ∀ l, (w.links l).reader.err = false ∧ decode srv.max (w.links l).reader.buf = .need
  outs : ∀ l f now r, Obs.executed l f now (some r) ∈ tr → Outbound.response f.id r ∈ (w.links l).conn.outs
  buf : ∀ p, tsDecode (w.peers p).buf = none
  seen : ∀ p l, (w.peers p).link = some l → ∃ seen rest, (w.links l).conn.written = seen ++ rest ∧
    (w.peers p).buf ++ (w.links l).toClient = rest.flatMap encode ∧ ∀ id r, Outbound.response id r ∈ seen → (id : Int) ∉ mkeys (w.peers p).lib.pending
  calls : ∀ p tag cmd l id, Obs.called p tag cmd (some (l, id)) ∈ tr → (w.peers p).link = some l →
    (∃ e, ((id : Nat) : Int) = e.1 ∧ e ∈ (w.peers p).lib.pending ∧ e.2.tag = tag) ∨ ∃ o, Obs.settled p tag o ∈ tr

theorem Kept.init (srv : Server E I) (e : E) : Kept srv (World.init e) [] :=
  ⟨fun l => ⟨rfl, rfl⟩, (fun l f now r h => nomatch h), (fun p => rfl), (fun p l h => nomatch h), (fun p tag cmd l id h => nomatch h)⟩

/-- Only connection `l` changes. -/
theorem Kept.link {srv : Server E I} {w w' : World E} {tr new : List (Obs I)} (h : Kept srv w tr) (l : Nat) (k : Link E)
    (hw : w'.links = upd w.links l k) (hpe : w'.peers = w.peers)
    (hn : k.reader.err = false ∧ decode srv.max k.reader.buf = .need)
    (ho : ∀ f now r, Obs.executed l f now (some r) ∈ tr ++ new → Outbound.response f.id r ∈ k.conn.outs)
    (he : ∀ l' f now r, Obs.executed l' f now r ∈ new → l' = l) (hc : ∀ p t c s, Obs.called p t c s ∉ new)
    (hm : ∃ more, k.conn.written = (w.links l).conn.written ++ more ∧ k.toClient = (w.links l).toClient ++ more.flatMap encode) :
    Kept srv w' (tr ++ new) := by
  refine ⟨?_, ?_, fun p => by rw [hpe]; exact h.buf p, ?_, ?_⟩
  · intro l'
    rw [hw]
    by_cases hl : l' = l
    · subst hl; rw [upd_same]; exact hn
    · rw [upd_other _ _ hl]; exact h.need l'
  · intro l' f now r hx
    rw [hw]
    by_cases hl : l' = l
    · subst hl; rw [upd_same]; exact ho f now r hx
    · rw [upd_other _ _ hl]
      rcases List.mem_append.mp hx with hx | hx
      · exact h.outs l' f now r hx
      · exact absurd (he l' f now _ hx) hl
  · intro p l' hl'
    rw [hpe] at hl' ⊢
    rw [hw]
    obtain ⟨seen, rest, h1, h2, h3⟩ := h.seen p l' hl'
    by_cases hl : l' = l
    · subst hl
      rw [upd_same]
      obtain ⟨more, h4, h5⟩ := hm
      exact ⟨seen, rest ++ more, by rw [h4, h1, List.append_assoc], by rw [h5, ← List.append_assoc, h2, List.flatMap_append], h3⟩
    · rw [upd_other _ _ hl]; exact ⟨seen, rest, h1, h2, h3⟩
  · intro p tag cmd l' id hx hl'
    rw [hpe] at hl' ⊢
    rcases List.mem_append.mp hx with hx | hx
    · rcases h.calls p tag cmd l' id hx hl' with h1 | ⟨o, h1⟩
      · exact .inl h1
      · exact .inr ⟨o, List.mem_append.mpr (.inl h1)⟩
    · exact absurd hx (hc _ _ _ _)

/-- Client `p` changes, and no connection does as far as the others can see. -/
theorem Kept.peer {srv : Server E I} {w w' : World E} {tr new : List (Obs I)} (h : Kept srv w tr) (p : Nat) (x : Peer)
    (hpe : w'.peers = upd w.peers p x)
    (hn : ∀ l, (w'.links l).reader.err = false ∧ decode srv.max (w'.links l).reader.buf = .need)
    (ho : ∀ l f now r, Obs.executed l f now (some r) ∈ tr ++ new → Outbound.response f.id r ∈ (w'.links l).conn.outs)
    (hl : ∀ q l, q ≠ p → (w.peers q).link = some l → (w'.links l).conn.written = (w.links l).conn.written ∧ (w'.links l).toClient = (w.links l).toClient)
    (hb : tsDecode x.buf = none)
    (hs : ∀ l, x.link = some l → ∃ seen rest, (w'.links l).conn.written = seen ++ rest ∧
      x.buf ++ (w'.links l).toClient = rest.flatMap encode ∧ ∀ id r, Outbound.response id r ∈ seen → (id : Int) ∉ mkeys x.lib.pending)
    (hc : ∀ tag cmd l id, Obs.called p tag cmd (some (l, id)) ∈ tr ++ new → x.link = some l →
      (∃ e, ((id : Nat) : Int) = e.1 ∧ e ∈ x.lib.pending ∧ e.2.tag = tag) ∨ ∃ o, Obs.settled p tag o ∈ tr ++ new)
    (hq : ∀ q t c s, Obs.called q t c s ∈ new → q = p) : Kept srv w' (tr ++ new) := by
  refine ⟨hn, ho, ?_, ?_, ?_⟩
  · intro q
    rw [hpe]
    by_cases hqp : q = p
    · subst hqp; rw [upd_same]; exact hb
    · rw [upd_other _ _ hqp]; exact h.buf q
  · intro q l hql
    rw [hpe] at hql ⊢
    by_cases hqp : q = p
    · subst hqp; rw [upd_same] at hql ⊢; exact hs l hql
    · rw [upd_other _ _ hqp] at hql ⊢
      obtain ⟨h1, h2⟩ := hl q l hqp hql
      rw [h1, h2]; exact h.seen q l hql
  · intro q tag cmd l id hx hql
    rw [hpe] at hql ⊢
    by_cases hqp : q = p
    · subst hqp; rw [upd_same] at hql ⊢; exact hc tag cmd l id hx hql
    · rw [upd_other _ _ hqp] at hql ⊢
      rcases List.mem_append.mp hx with hx | hx
      · rcases h.calls q tag cmd l id hx hql with h1 | ⟨o, h1⟩
        · exact .inl h1
        · exact .inr ⟨o, List.mem_append.mpr (.inl h1)⟩
      · exact absurd (hq _ _ _ _ hx) hqp

end Verif.Rpc
