import Verif.Proofs.Rpc9

/-!
# Lemmas about clients, network and server together: connections that are gone
-/

namespace Verif.Rpc

open Verif Verif.Wire Verif.Sdk

variable {E I : Type}

/-- A lost connection settles all that waits. -/
theorem closed_settles {c : Client} {e : CEv} (hs : Sound c) (h : outside e = true) (ho : c.socket = .opened)
    (hc : (c.step e).1.socket ≠ .opened) (hd : e ≠ .disconnect) {id : Int} {x : Pend} (hx : (id, x) ∈ c.pending) :
    ∃ o, (x.tag, o) ∈ (c.step e).2 := by
  rcases closes hs h ho hc with rfl | rfl | rfl
  · simp only [Client.step, ho]
    unfold Client.cleanup
    simp only []
    exact ⟨_, List.mem_map.mpr ⟨(id, x), hx, rfl⟩⟩
  · exact absurd rfl hd
  · simp only [Client.step, ho] at hc
    exact absurd rfl hc

/-- The requests that clients in `Q` made on connections they no longer have are settled. -/
def Gone (Q : Nat → Prop) (w : World E) (tr : List (Obs I)) : Prop :=
  ∀ p, Q p → ∀ tag cmd l id, Obs.called p tag cmd (some (l, id)) ∈ tr → (w.peers p).link ≠ some l → ∃ o, Obs.settled p tag o ∈ tr

theorem Gone.same {Q : Nat → Prop} {w w' : World E} {tr new : List (Obs I)} (h : Gone Q w tr) (hl : ∀ p, (w'.peers p).link = (w.peers p).link)
    (hn : ∀ p tag cmd l id, Obs.called p tag cmd (some (l, id)) ∈ new → (w.peers p).link = some l) : Gone Q w' (tr ++ new) := by
  intro p hq tag cmd l id hx hne
  rw [hl] at hne
  rcases List.mem_append.mp hx with hx | hx
  · obtain ⟨o, h1⟩ := h p hq tag cmd l id hx hne
    exact ⟨o, List.mem_append.mpr (.inl h1)⟩
  · exact absurd (hn p tag cmd l id hx) hne

theorem upd_link {peers : Nat → Peer} {p : Nat} {x : Peer} (h : x.link = (peers p).link) (q : Nat) : (upd peers p x q).link = (peers q).link := by
  by_cases hq : q = p
  · subst hq; rw [upd_same]; exact h
  · rw [upd_other _ _ hq]

theorem Gone.step {Q : Nat → Prop} {pr : Printer} {srv : Server E I} {w : World E} {tr : List (Obs I)} (h : Gone Q w tr) (hk : Kept srv w tr)
    (hi : Inv pr w tr) (e : Ev I) (he : ∀ p, e = .lib p .disconnect → ¬ Q p) : Gone Q (w.step pr srv e).1 (tr ++ (w.step pr srv e).2) := by
  cases e with
  | lib p e =>
    have hP := hi.peers p
    simp only [World.step]
    cases hout : outside e with
    | false => simpa using h
    | true =>
      simp only [Bool.not_true, Bool.false_eq_true, if_false]
      split
      · next hop =>
        obtain ⟨rfl, hcg⟩ := hop
        have hln : (w.peers p).link = none := by
          cases hl : (w.peers p).link with
          | none => rfl
          | some l => have := hP.sock.mpr ⟨l, hl⟩; rw [hcg] at this; cases this
        intro q hq tag cmd l id hx hne
        rcases List.mem_append.mp hx with hx | hx
        · have : (w.peers q).link ≠ some l := by
            by_cases hqp : q = p
            · subst hqp; rw [hln]; exact fun h => nomatch h
            · dsimp only at hne; rw [upd_other _ _ hqp] at hne; exact hne
          obtain ⟨o, h1⟩ := h q hq tag cmd l id hx this
          exact ⟨o, List.mem_append.mpr (.inl h1)⟩
        · exact absurd hx no_call_settle
      · intro q hq tag cmd l id hx hne
        rcases List.mem_append.mp hx with hin | hin
        · by_cases hlk : (w.peers q).link = some l
          · by_cases hqp : q = p
            · subst hqp
              rcases hk.calls q tag cmd l id hin hlk with ⟨x, h1, h2, h3⟩ | ⟨o, h1⟩
              · have hcl : ((w.peers q).lib.step e).1.socket ≠ .opened := by
                  intro ho
                  dsimp only at hne
                  rw [upd_same] at hne
                  unfold Peer.after at hne
                  rw [if_pos ho] at hne
                  exact hne hlk
                obtain ⟨o, h4⟩ := closed_settles hP.sound hout (hP.sock.mpr ⟨l, hlk⟩) hcl (by rintro rfl; exact he q rfl hq) h2
                refine ⟨o, List.mem_append.mpr (.inr (settle_mem ?_))⟩
                rw [← h3]; exact h4
              · exact ⟨o, List.mem_append.mpr (.inl h1)⟩
            · dsimp only at hne
              rw [upd_other _ _ hqp] at hne
              exact absurd hlk hne
          · obtain ⟨o, h1⟩ := h q hq tag cmd l id hin hlk
            exact ⟨o, List.mem_append.mpr (.inl h1)⟩
        · exact absurd hin no_call_settle
  | call p tag T now cmd =>
    simp only [World.step]
    split
    · refine h.same (fun q => upd_link (p := p) (by rfl) q) ?_
      intro q t c l id hx; simp at hx
    · split
      · next h1 h2 =>
        refine h.same (fun q => upd_link (p := p) (by rfl) q) ?_
        intro q t c l id hx
        rcases List.mem_cons.mp hx with hx | hx
        · injection hx with h3 _ _ h4
          injection h4 with h4
          injection h4 with h4 _
          rw [h3, h4]; exact h2
        · exact absurd hx no_call_settle
      · refine h.same (fun q => upd_link (p := p) (by rfl) q) ?_
        intro q t c l id hx
        rcases List.mem_cons.mp hx with hx | hx
        · cases hx
        · exact absurd hx no_call_settle
  | fire p cmd =>
    simp only [World.step]
    split
    · exact h.same (fun q => upd_link (p := p) (by rfl) q) (fun q t c l id hx => by simp at hx)
    · split <;> exact h.same (fun q => upd_link (p := p) (by rfl) q) (fun q t c l id hx => by simp at hx)
  | toServer l n =>
    simp only [World.step]
    split <;> exact h.same (fun _ => rfl) (fun q t c l id hx => by simp at hx)
  | server l now e =>
    refine h.same ?_ ?_
    · intro q
      cases e <;> simp only [World.step] <;> (try split) <;> rfl
    · intro q t c l' id hx
      cases e <;> simp only [World.step] at hx <;> (try split at hx) <;> simp at hx
  | drop l => exact h.same (fun _ => rfl) (fun q t c l id hx => by simp [World.step] at hx)
  | toClient l n =>
    simp only [World.step]
    split
    · exact h.same (fun q => upd_link (p := (w.links l).peer) (by rfl) q) (fun q t c l id hx => absurd hx no_call_settle)
    · simpa using h
  | tick x => exact h.same (fun _ => rfl) (fun q t c l id hx => by simp [World.step] at hx)

theorem gone_run (pr : Printer) (srv : Server E I) (e0 : E) (es : List (Ev I)) (ho : Ordinary pr srv ((World.init e0).run pr srv es).2)
    (hw : Within pr srv ((World.init e0).run pr srv es).2) (Q : Nat → Prop) (hq : ∀ p, Q p → Ev.lib p .disconnect ∉ es) :
    Gone Q ((World.init e0).run pr srv es).1 ((World.init e0).run pr srv es).2 := by
  induction es using Sdk.snoc_ind with
  | h0 => intro p _ tag cmd l id hx; cases hx
  | h1 es e ih =>
    rw [run_snoc] at ho hw ⊢
    refine (ih ho.left hw.left (fun p hp hm => hq p hp (List.mem_append.mpr (.inl hm)))).step
      (kept_run pr srv e0 es ho.left hw.left) (holds_run pr srv e0 es ho.left).1 e ?_
    intro p he hp
    exact hq p hp (List.mem_append.mpr (.inr (by rw [he]; exact List.mem_singleton.mpr rfl)))

end Verif.Rpc
