import Verif.Spec.SdkConnection
import Verif.Props.Wire

/-! # Invariants of the client library's connection -/

namespace Verif.Sdk

open Verif Verif.Wire

theorem snoc_ind {α : Type} {P : List α → Prop} (h0 : P []) (h1 : ∀ es e, P es → P (es ++ [e])) (es : List α) : P es := by
  have : ∀ r : List α, P r.reverse := by
    intro r
    induction r with
    | nil => exact h0
    | cons e r ih => rw [List.reverse_cons]; exact h1 _ _ ih
  simpa using this es.reverse

namespace Client

theorem run_append (c : Client) (a b : List CEv) : c.run (a ++ b) = (c.run a).run b := by
  induction a generalizing c with
  | nil => rfl
  | cons e a ih => exact ih _

theorem run_snoc (c : Client) (a : List CEv) (e : CEv) : c.run (a ++ [e]) = ((c.run a).step e).1 := by
  rw [run_append]; rfl

theorem outcomes_append (c : Client) (a b : List CEv) : c.outcomes (a ++ b) = c.outcomes a ++ (c.run a).outcomes b := by
  induction a generalizing c with
  | nil => rfl
  | cons e a ih => simp only [List.cons_append, outcomes, ih, List.append_assoc]; rfl

theorem outcomes_snoc (c : Client) (a : List CEv) (e : CEv) :
    c.outcomes (a ++ [e]) = c.outcomes a ++ ((c.run a).step e).2 := by
  rw [outcomes_append]; simp [outcomes]

end Client

theorem requests_append (a b : List CEv) : requests (a ++ b) = requests a ++ requests b := by
  induction a with
  | nil => rfl
  | cons e a ih => cases e <;> simp [requests, ih]

theorem frames_append (a b : List CEv) : frames (a ++ b) = frames a + frames b := by
  induction a with
  | nil => simp [frames]
  | cons e a ih => cases e <;> simp [frames, ih] <;> omega

theorem settledTimes_append (t : Nat) (a b : List (Nat × Outcome)) :
    settledTimes t (a ++ b) = settledTimes t a + settledTimes t b := by simp [settledTimes]

/-- How often a request is among those that wait. -/
def waiting (t : Nat) (m : List (Int × Pend)) : Nat := (m.map (fun e => e.2.tag)).count t

theorem waiting_append (t : Nat) (a b : List (Int × Pend)) : waiting t (a ++ b) = waiting t a + waiting t b := by simp [waiting]

theorem waiting_split (t : Nat) (m : List (Int × Pend)) (p : (Int × Pend) → Bool) :
    waiting t (m.filter (fun e => !p e)) + waiting t (m.filter p) = waiting t m := by
  induction m with
  | nil => rfl
  | cons e m ih =>
    have h1 : ∀ l, waiting t (e :: l) = waiting t [e] + waiting t l := fun l => waiting_append t [e] l
    cases hp : p e <;> simp [hp] <;> rw [h1, h1 m] <;> omega

theorem waiting_outs (t : Nat) (m : List (Int × Pend)) (o : Outcome) :
    settledTimes t (m.map (fun e => (e.2.tag, o))) = waiting t m := by
  simp [settledTimes, waiting, Function.comp_def]

theorem waiting_del (t : Nat) {m : List (Int × Pend)} {id : Int} {p : Pend} (h : mget m id = some p) :
    waiting t (mdel m id) + waiting t [(id, p)] ≤ waiting t m := by
  induction m with
  | nil => cases h
  | cons e m ih =>
    have h1 : ∀ l, waiting t (e :: l) = waiting t [e] + waiting t l := fun l => waiting_append t [e] l
    rw [mget_cons] at h
    by_cases he : e.1 = id
    · rw [if_pos he] at h
      have : e = (id, p) := by cases e; simp at he h; simp [he, h]
      have h2 : mdel (e :: m) id = mdel m id := by simp [mdel, he]
      rw [h2, h1, this]
      have := waiting_split t m (fun e => decide (e.1 = id))
      have h3 : m.filter (fun e => !decide (e.1 = id)) = mdel m id := by simp [mdel]
      rw [h3] at this
      omega
    · rw [if_neg he] at h
      have h2 : mdel (e :: m) id = e :: mdel m id := by simp [mdel, he]
      rw [h2, h1, h1 m]
      have := ih h
      omega

theorem waiting_del_eq (t : Nat) {m : List (Int × Pend)} (hwf : MWF m) {id : Int} {p : Pend} (h : mget m id = some p) :
    waiting t (mdel m id) + waiting t [(id, p)] = waiting t m := by
  induction m with
  | nil => cases h
  | cons e m ih =>
    have h1 : ∀ l, waiting t (e :: l) = waiting t [e] + waiting t l := fun l => waiting_append t [e] l
    have hw : e.1 ∉ mkeys m ∧ MWF m := List.nodup_cons.mp hwf
    rw [mget_cons] at h
    by_cases he : e.1 = id
    · rw [if_pos he] at h
      have : e = (id, p) := by cases e; simp at he h; simp [he, h]
      have h2 : mdel (e :: m) id = mdel m id := by simp [mdel, he]
      rw [h2, h1, this, mdel_of_not_mem (by rw [← he]; exact hw.1)]
      omega
    · rw [if_neg he] at h
      have h2 : mdel (e :: m) id = e :: mdel m id := by simp [mdel, he]
      rw [h2, h1, h1 m]
      have := ih hw.2 h
      omega

theorem waiting_mdel_le (t : Nat) (m : List (Int × Pend)) (id : Int) : waiting t (mdel m id) ≤ waiting t m := by
  have := waiting_split t m (fun e => decide (e.1 = id))
  have h3 : m.filter (fun e => !decide (e.1 = id)) = mdel m id := by simp [mdel]
  rw [h3] at this
  omega

/-- No step settles more than it takes from those that wait and from the request it makes. -/
theorem conserve_le (c : Client) (e : CEv) (t : Nat) :
    settledTimes t (c.step e).2 + waiting t (c.step e).1.pending ≤ waiting t c.pending + (requests [e]).count t := by
  have hcl : settledTimes t c.cleanup.2 + waiting t c.cleanup.1.pending = waiting t c.pending := by
    have h1 : c.cleanup.1.pending = [] := by unfold Client.cleanup; simp only []; split <;> rfl
    rw [h1, Client.cleanup]
    simp only [waiting_outs]
    simp [waiting]
  cases e with
  | connect => simp only [Client.step]; split <;> simp [settledTimes, requests]
  | opened =>
    simp only [Client.step]
    split
    · split <;> simp [settledTimes, requests]
    · simp [settledTimes, requests]
  | refused =>
    simp only [Client.step]
    split
    · split <;> simp [requests] <;> omega
    · simp [settledTimes, requests]
  | lost =>
    simp only [Client.step]
    split
    · simp [requests]; omega
    · simp [settledTimes, requests]
  | timer => simp only [Client.step]; split <;> simp [settledTimes, requests]
  | send tag T now =>
    have hr : requests [CEv.send tag T now] = [tag] := rfl
    simp only [Client.step, hr]
    split
    · simp [settledTimes]; omega
    split
    · simp [settledTimes]; omega
    · simp only [mset, waiting_append]
      have := waiting_mdel_le t c.pending c.nextId
      simp only [settledTimes, waiting, List.map_nil, List.count_nil, List.map_cons, Nat.zero_add] at this ⊢
      omega
  | fire => simp only [Client.step]; split <;> simp [settledTimes, requests]
  | response id st d =>
    simp only [Client.step]
    split
    · split
      · next p hp =>
        have := waiting_del t hp
        simp only [settledTimes, waiting, List.map_cons, List.map_nil, requests, List.count_nil] at this ⊢
        omega
      · simp [settledTimes, requests]
    · simp [settledTimes, requests]
  | sweep now =>
    simp only [Client.step]
    split
    · have := waiting_split t c.pending (fun e => decide (e.2.deadline < now))
      simp only [waiting_outs, requests, List.count_nil]
      omega
    · simp [settledTimes, requests]
  | disconnect => simp [Client.step, settledTimes, waiting]

theorem conserve_run_le (c : Client) (es : List CEv) (t : Nat) :
    settledTimes t (c.outcomes es) + waiting t (c.run es).pending ≤ waiting t c.pending + (requests es).count t := by
  induction es generalizing c with
  | nil => simp [Client.outcomes, Client.run, settledTimes, requests]
  | cons e es ih =>
    have h1 := conserve_le c e t
    have h2 := ih (c.step e).1
    have h3 : requests (e :: es) = requests [e] ++ requests es := requests_append [e] es
    rw [h3, List.count_append]
    show settledTimes t (_ ++ _) + waiting t ((c.step e).1.run es).pending ≤ _
    rw [settledTimes_append]
    omega

/-- What holds of every client. -/
structure Sound (c : Client) : Prop where
  opened : c.connected = true ↔ c.socket = .opened
  begun : c.begun = false → c.socket = .closed ∧ c.reconnecting = false ∧ c.asleep + c.dialing = 0 ∧ c.pending = []
  outstanding : c.connected = false → c.pending = []
  loops : c.asleep + c.dialing ≤ 1
  asleep : 0 < c.asleep → c.socket = .closed
  dialing : 0 < c.dialing → c.socket = .connecting
  flag : c.shouldReconnect = true → (c.reconnecting = true ↔ c.asleep + c.dialing = 1)
  trying : c.begun = true → c.shouldReconnect = true → c.socket = .closed → c.asleep = 1
  sweeps : c.begun = true → c.shouldReconnect = true → c.sweeping = true

theorem Sound.init : Sound {} := by
  constructor <;> simp

theorem sound_cleanup {c : Client} (h : Sound c) (hb : c.begun = true) (hd : c.dialing = 0) (ha : c.asleep = 0) : Sound c.cleanup.1 := by
  obtain ⟨h1, h2, h3, h4, h5, h6, h7, h8, h9⟩ := h
  unfold Client.cleanup
  simp only []
  split <;> constructor <;> simp_all

theorem Sound.step {c : Client} (h : Sound c) (e : CEv) : Sound (Client.step c e).1 := by
  have hs := h
  obtain ⟨h1, h2, h3, h4, h5, h6, h7, h8, h9⟩ := h
  cases e with
  | connect =>
    simp only [Client.step]
    split
    · exact hs
    · next hb =>
      have := h2 (by simpa using hb)
      constructor <;> simp_all
  | opened =>
    simp only [Client.step]
    split
    · next hk =>
      have hb : c.begun = true := by cases hb : c.begun with | true => rfl | false => have := h2 hb; simp_all
      have ha : c.asleep = 0 := by
        by_cases ha : c.asleep = 0
        · exact ha
        · have := h5 (by omega); simp_all
      split
      · next hd =>
        have : c.dialing = 1 := by omega
        constructor <;> simp_all
      · have : c.dialing = 0 := by omega
        constructor <;> simp_all
    · exact hs
  | refused =>
    simp only [Client.step]
    split
    · next hk =>
      have hb : c.begun = true := by cases hb : c.begun with | true => rfl | false => have := h2 hb; simp_all
      have ha : c.asleep = 0 := by
        by_cases ha : c.asleep = 0
        · exact ha
        · have := h5 (by omega); simp_all
      split
      · have : c.dialing = 1 := by omega
        unfold Client.cleanup
        simp only []
        cases hr : c.shouldReconnect <;> cases hq : c.reconnecting <;> constructor <;> simp_all
      · exact sound_cleanup hs hb (by omega) ha
    · exact hs
  | lost =>
    simp only [Client.step]
    split
    · next hk =>
      have hb : c.begun = true := by cases hb : c.begun with | true => rfl | false => have := h2 hb; simp_all
      have ha : c.asleep = 0 := by
        by_cases ha : c.asleep = 0
        · exact ha
        · have := h5 (by omega); simp_all
      have hd : c.dialing = 0 := by
        by_cases ha : c.dialing = 0
        · exact ha
        · have := h6 (by omega); simp_all
      exact sound_cleanup hs hb hd ha
    · exact hs
  | timer =>
    simp only [Client.step]
    split
    · have ha : c.asleep = 1 := by omega
      have hd : c.dialing = 0 := by omega
      have hk := h5 (by omega)
      have hb : c.begun = true := by cases hb : c.begun with | true => rfl | false => have := h2 hb; omega
      have hc : c.connected = false := by cases hc : c.connected with | false => rfl | true => have := h1.mp hc; simp_all
      constructor <;> simp_all
    · exact hs
  | send tag T now =>
    simp only [Client.step]
    split
    · exact ⟨h1, h2, h3, h4, h5, h6, h7, h8, h9⟩
    split
    · exact ⟨h1, h2, h3, h4, h5, h6, h7, h8, h9⟩
    · next hc =>
      have hc : c.connected = true := by simpa using hc
      refine ⟨h1, ?_, ?_, h4, h5, h6, h7, h8, h9⟩
      · intro hb; have := h2 hb; have := h1.mp hc; simp_all
      · intro hc'; simp_all
  | fire =>
    simp only [Client.step]
    split
    · exact ⟨h1, h2, h3, h4, h5, h6, h7, h8, h9⟩
    · exact hs
  | response id st d =>
    simp only [Client.step]
    split
    · split
      · next hk _ p hp =>
        refine ⟨h1, ?_, ?_, h4, h5, h6, h7, h8, h9⟩
        · intro hb; have := h2 hb; simp_all
        · intro hc'; have := h1.mpr hk; simp_all
      · exact hs
    · exact hs
  | sweep now =>
    simp only [Client.step]
    split
    · refine ⟨h1, ?_, ?_, h4, h5, h6, h7, h8, h9⟩
      · intro hb; have := h2 hb; simp_all
      · intro hc; have := h3 hc; simp_all
    · exact hs
  | disconnect =>
    simp only [Client.step]
    constructor <;> simp_all <;> omega

theorem Sound.run {c : Client} (h : Sound c) (es : List CEv) : Sound (Client.run c es) := by
  induction es generalizing c with
  | nil => exact h
  | cons e es ih => exact ih (h.step e)

/-- Only `disconnect` makes a client give up. -/
theorem wants {c : Client} (h : c.shouldReconnect = true) {e : CEv} (he : e ≠ .disconnect) : (Client.step c e).1.shouldReconnect = true := by
  cases e with
  | disconnect => exact absurd rfl he
  | connect => simp only [Client.step]; split <;> simp [h]
  | opened => simp only [Client.step]; split <;> (try split) <;> simp [h]
  | refused =>
    simp only [Client.step, Client.cleanup]
    split
    · split <;> (simp only []; split <;> exact h)
    · exact h
  | lost =>
    simp only [Client.step, Client.cleanup]
    split
    · split <;> exact h
    · exact h
  | timer => simp only [Client.step]; split <;> simp [h]
  | send => simp only [Client.step]; split <;> (try split) <;> simp [h]
  | fire => simp only [Client.step]; split <;> simp [h]
  | response => simp only [Client.step]; split <;> (try split) <;> simp [h]
  | sweep => simp only [Client.step]; split <;> simp [h]

theorem wants_run {c : Client} (h : c.shouldReconnect = true) {es : List CEv} (he : CEv.disconnect ∉ es) :
    (Client.run c es).shouldReconnect = true := by
  induction es generalizing c with
  | nil => exact h
  | cons e es ih =>
    simp only [List.mem_cons, not_or] at he
    exact ih (wants h (fun hc => he.1 hc.symm)) he.2

theorem begun_step (c : Client) (e : CEv) (h : c.begun = true) : (Client.step c e).1.begun = true := by
  cases e with
  | disconnect => exact h
  | connect => simp only [Client.step]; split <;> simp [h]
  | opened => simp only [Client.step]; split <;> (try split) <;> simp [h]
  | refused =>
    simp only [Client.step, Client.cleanup]
    split
    · split <;> (simp only []; split <;> exact h)
    · exact h
  | lost =>
    simp only [Client.step, Client.cleanup]
    split
    · split <;> exact h
    · exact h
  | timer => simp only [Client.step]; split <;> simp [h]
  | send => simp only [Client.step]; split <;> (try split) <;> simp [h]
  | fire => simp only [Client.step]; split <;> simp [h]
  | response => simp only [Client.step]; split <;> (try split) <;> simp [h]
  | sweep => simp only [Client.step]; split <;> simp [h]

theorem begun_run (c : Client) (es : List CEv) (h : c.begun = true ∨ CEv.connect ∈ es) : (Client.run c es).begun = true := by
  induction es generalizing c with
  | nil => exact h.resolve_right (by simp)
  | cons e es ih =>
    apply ih
    rcases h with h | h
    · exact .inl (begun_step c e h)
    · rcases List.mem_cons.mp h with h | h
      · subst h
        left
        simp only [Client.step]
        split
        · next h => exact h
        · rfl
      · exact .inr h

/-- Without `disconnect`, a step settles exactly what it takes. -/
theorem conserve_eq {c : Client} {e : CEv} (hwf : MWF c.pending) (hf : c.nextId ∉ mkeys c.pending) (he : e ≠ .disconnect) (t : Nat) :
    settledTimes t (c.step e).2 + waiting t (c.step e).1.pending = waiting t c.pending + (requests [e]).count t := by
  have hcl : settledTimes t c.cleanup.2 + waiting t c.cleanup.1.pending = waiting t c.pending := by
    have h1 : c.cleanup.1.pending = [] := by unfold Client.cleanup; simp only []; split <;> rfl
    rw [h1, Client.cleanup]
    simp only [waiting_outs]
    simp [waiting]
  cases e with
  | connect => simp only [Client.step]; split <;> simp [settledTimes, requests]
  | opened =>
    simp only [Client.step]
    split
    · split <;> simp [settledTimes, requests]
    · simp [settledTimes, requests]
  | refused =>
    simp only [Client.step]
    split
    · split <;> simp [requests] <;> omega
    · simp [settledTimes, requests]
  | lost =>
    simp only [Client.step]
    split
    · simp [requests]; omega
    · simp [settledTimes, requests]
  | timer => simp only [Client.step]; split <;> simp [settledTimes, requests]
  | send tag T now =>
    have hr : requests [CEv.send tag T now] = [tag] := rfl
    simp only [Client.step, hr]
    split
    · simp [settledTimes]; omega
    split
    · simp [settledTimes]; omega
    · simp only [mset_of_not_mem _ hf, waiting_append]
      simp only [settledTimes, waiting, List.map_nil, List.count_nil, List.map_cons, Nat.zero_add]
  | fire => simp only [Client.step]; split <;> simp [settledTimes, requests]
  | response id st d =>
    simp only [Client.step]
    split
    · split
      · next p hp =>
        have := waiting_del_eq t hwf hp
        simp only [settledTimes, waiting, List.map_cons, List.map_nil, requests, List.count_nil] at this ⊢
        omega
      · simp [settledTimes, requests]
    · simp [settledTimes, requests]
  | sweep now =>
    simp only [Client.step]
    split
    · have := waiting_split t c.pending (fun e => decide (e.2.deadline < now))
      simp only [waiting_outs, requests, List.count_nil]
      omega
    · simp [settledTimes, requests]
  | disconnect => exact absurd rfl he

/-- The ids in use are those of earlier requests. -/
def Numbered (c : Client) (k : Nat) : Prop :=
  c.nextId = tsId k ∧ MWF c.pending ∧ ∀ id ∈ mkeys c.pending, ∃ j < k, id = tsId j

theorem mem_mkeys_filter {m : List (Int × Pend)} {p : Int × Pend → Bool} {id : Int} (h : id ∈ mkeys (m.filter p)) : id ∈ mkeys m := by
  simp only [mkeys, List.mem_map, List.mem_filter] at h ⊢
  obtain ⟨e, ⟨h, _⟩, rfl⟩ := h
  exact ⟨e, h, rfl⟩

theorem mwf_filter {m : List (Int × Pend)} (h : MWF m) (p : Int × Pend → Bool) : MWF (m.filter p) :=
  List.Sublist.nodup ((List.filter_sublist).map _) h

theorem cleanup_pending (c : Client) : c.cleanup.1.pending = [] := by unfold Client.cleanup; simp only []; split <;> rfl
theorem cleanup_nextId (c : Client) : c.cleanup.1.nextId = c.nextId := by unfold Client.cleanup; simp only []; split <;> rfl

theorem Numbered.empty {c c' : Client} {k : Nat} (h : Numbered c k) (h1 : c'.nextId = c.nextId) (h2 : c'.pending = []) : Numbered c' k := by
  refine ⟨h1.trans h.1, ?_, ?_⟩
  · rw [h2]; exact MWF.nil
  · rw [h2]; intro id hid; cases hid

theorem Numbered.step {c : Client} {k : Nat} (h : Numbered c k) (e : CEv) :
    Numbered (Client.step c e).1 k ∨ Numbered (Client.step c e).1 (k + 1) ∧ frames [e] = 1 := by
  obtain ⟨h1, h2, h3⟩ := h
  cases e with
  | connect => left; simp only [Client.step]; split <;> exact ⟨h1, h2, h3⟩
  | opened => left; simp only [Client.step]; split <;> (try split) <;> exact ⟨h1, h2, h3⟩
  | refused =>
    left
    simp only [Client.step]
    split
    · split
      · exact Numbered.empty ⟨h1, h2, h3⟩ (cleanup_nextId c) (cleanup_pending c)
      · exact Numbered.empty ⟨h1, h2, h3⟩ (cleanup_nextId c) (cleanup_pending c)
    · exact ⟨h1, h2, h3⟩
  | lost =>
    left
    simp only [Client.step]
    split
    · exact Numbered.empty ⟨h1, h2, h3⟩ (cleanup_nextId c) (cleanup_pending c)
    · exact ⟨h1, h2, h3⟩
  | timer => left; simp only [Client.step]; split <;> exact ⟨h1, h2, h3⟩
  | send tag T now =>
    right
    refine ⟨?_, rfl⟩
    have hn : tsNextId c.nextId = tsId (k + 1) := by rw [h1]; rfl
    simp only [Client.step]
    split
    · exact ⟨hn, h2, fun id hid => let ⟨j, hj, hi⟩ := h3 id hid; ⟨j, by omega, hi⟩⟩
    split
    · exact ⟨hn, h2, fun id hid => let ⟨j, hj, hi⟩ := h3 id hid; ⟨j, by omega, hi⟩⟩
    · refine ⟨hn, h2.mset _ _, fun id hid => ?_⟩
      rcases mem_mkeys_mset.mp hid with rfl | hid
      · exact ⟨k, by omega, h1⟩
      · obtain ⟨j, hj, hi⟩ := h3 id hid
        exact ⟨j, by omega, hi⟩
  | fire =>
    simp only [Client.step]
    split
    · right
      exact ⟨⟨by rw [h1]; rfl, h2, fun id hid => let ⟨j, hj, hi⟩ := h3 id hid; ⟨j, by omega, hi⟩⟩, rfl⟩
    · left; exact ⟨h1, h2, h3⟩
  | response id st d =>
    left
    simp only [Client.step]
    split
    · split
      · exact ⟨h1, h2.mdel _, fun i hi => h3 i (mem_mkeys_mdel.mp hi).2⟩
      · exact ⟨h1, h2, h3⟩
    · exact ⟨h1, h2, h3⟩
  | sweep now =>
    left
    simp only [Client.step]
    split
    · exact ⟨h1, mwf_filter h2 _, fun i hi => h3 i (mem_mkeys_filter hi)⟩
    · exact ⟨h1, h2, h3⟩
  | disconnect =>
    left
    exact Numbered.empty ⟨h1, h2, h3⟩ rfl rfl

theorem Numbered.fresh {c : Client} {k : Nat} (h : Numbered c k) (hk : k + 1 < 2 ^ 31) : c.nextId ∉ mkeys c.pending := by
  intro hm
  obtain ⟨j, hj, hi⟩ := h.2.2 _ hm
  exact (C63_ids_partial k hk).2.2 j hj (by rw [← hi, h.1])

theorem conserve_run_eq {c : Client} {k : Nat} (hn : Numbered c k) {es : List CEv} (hd : CEv.disconnect ∉ es)
    (hk : k + frames es < 2 ^ 31 - 1) (t : Nat) :
    settledTimes t (c.outcomes es) + waiting t (c.run es).pending = waiting t c.pending + (requests es).count t := by
  induction es generalizing c k with
  | nil => simp [Client.outcomes, Client.run, settledTimes, requests]
  | cons e es ih =>
    simp only [List.mem_cons, not_or] at hd
    have hfr : frames (e :: es) = frames [e] + frames es := frames_append [e] es
    rw [hfr] at hk
    have h1 := conserve_eq hn.2.1 (hn.fresh (by omega)) (fun h => hd.1 h.symm) t
    have h2 : settledTimes t ((c.step e).1.outcomes es) + waiting t ((c.step e).1.run es).pending
        = waiting t (c.step e).1.pending + (requests es).count t := by
      rcases hn.step e with h | ⟨h, hf⟩
      · exact ih h hd.2 (by omega)
      · exact ih h hd.2 (by omega)
    have h3 : requests (e :: es) = requests [e] ++ requests es := requests_append [e] es
    rw [h3, List.count_append]
    show settledTimes t (_ ++ _) + waiting t ((c.step e).1.run es).pending = _
    rw [settledTimes_append]
    omega

theorem numbered_init : Numbered {} 0 := ⟨rfl, MWF.nil, by intro id h; cases h⟩

/-- Where an entry that waits comes from: a request on the connection that is still open. -/
theorem origin (es : List CEv) {id : Int} {p : Pend} (h : (id, p) ∈ (Client.run {} es).pending) :
    ∃ a b T now, es = a ++ CEv.send p.tag T now :: b ∧ p.deadline = now + T ∧
      (Client.run {} a).wrote (.send p.tag T now) = some id ∧ CEv.lost ∉ b ∧ CEv.disconnect ∉ b := by
  induction es using snoc_ind with
  | h0 => cases h
  | h1 es e ih =>
    rw [Client.run_snoc] at h
    have hs : Sound (Client.run {} es) := Sound.init.run es
    have keep : (id, p) ∈ (Client.run {} es).pending → e ≠ .lost → e ≠ .disconnect → ∃ a b T now, es ++ [e] = a ++ CEv.send p.tag T now :: b ∧
        p.deadline = now + T ∧ (Client.run {} a).wrote (.send p.tag T now) = some id ∧ CEv.lost ∉ b ∧ CEv.disconnect ∉ b := by
      intro hm h1 h2
      obtain ⟨a, b, T, now, rfl, hd, hw, hb, hb'⟩ := ih hm
      exact ⟨a, b ++ [e], T, now, by simp, hd, hw, by simp [hb, Ne.symm h1], by simp [hb', Ne.symm h2]⟩
    generalize hc : Client.run {} es = c at h keep hs
    cases e with
    | connect => refine keep ?_ (by simp) (by simp); simp only [Client.step] at h; split at h <;> exact h
    | opened => refine keep ?_ (by simp) (by simp); simp only [Client.step] at h; split at h <;> (try split at h) <;> exact h
    | refused =>
      simp only [Client.step] at h
      split at h
      · split at h
        · simp only [cleanup_pending] at h; cases h
        · rw [cleanup_pending] at h; cases h
      · exact keep h (by simp) (by simp)
    | lost =>
      simp only [Client.step] at h
      split at h
      · rw [cleanup_pending] at h; cases h
      · next hno =>
        have hcon : c.connected = false := by
          cases hcc : c.connected with
          | false => rfl
          | true => exact absurd (hs.opened.mp hcc) (by simpa using hno)
        rw [hs.outstanding hcon] at h; cases h
    | timer => refine keep ?_ (by simp) (by simp); simp only [Client.step] at h; split at h <;> exact h
    | send tag T now =>
      simp only [Client.step] at h
      split at h
      · exact keep h (by simp) (by simp)
      split at h
      · exact keep h (by simp) (by simp)
      · next hid hcon =>
        simp only [mset, List.mem_append, List.mem_singleton] at h
        rcases h with h | h
        · refine keep ?_ (by simp) (by simp)
          simp only [mdel, List.mem_filter] at h
          exact h.1
        · simp only [Prod.mk.injEq] at h
          obtain ⟨rfl, rfl⟩ := h
          refine ⟨es, [], T, now, rfl, rfl, ?_, by simp, by simp⟩
          simp only [Client.wrote, hc]
          simp at hid hcon
          simp [hid, hcon]
    | fire => refine keep ?_ (by simp) (by simp); simp only [Client.step] at h; split at h <;> exact h
    | response i st d =>
      refine keep ?_ (by simp) (by simp)
      simp only [Client.step] at h
      split at h
      · split at h
        · simp only [mdel, List.mem_filter] at h
          exact h.1
        · exact h
      · exact h
    | sweep now =>
      refine keep ?_ (by simp) (by simp)
      simp only [Client.step] at h
      split at h
      · exact (List.mem_filter.mp h).1
      · exact h
    | disconnect => cases h

/-- An answer is the payload of a response frame with the id of the entry it settles. -/
theorem answered_step {c : Client} {e : CEv} {t : Nat} {st : UInt8} {d : Bytes} (h : (t, Outcome.answer st d) ∈ (c.step e).2) :
    ∃ id : Nat, e = .response id st d ∧ ∃ p, mget c.pending (id : Int) = some p ∧ p.tag = t := by
  have hcl : (t, Outcome.answer st d) ∉ c.cleanup.2 := by simp [Client.cleanup]
  cases e with
  | connect => simp only [Client.step] at h; split at h <;> cases h
  | opened => simp only [Client.step] at h; split at h <;> (try split at h) <;> cases h
  | refused =>
    simp only [Client.step] at h
    split at h
    · split at h <;> exact absurd h hcl
    · cases h
  | lost =>
    simp only [Client.step] at h
    split at h
    · exact absurd h hcl
    · cases h
  | timer => simp only [Client.step] at h; split at h <;> cases h
  | send => simp only [Client.step] at h; split at h <;> (try split at h) <;> simp at h
  | fire => simp only [Client.step] at h; split at h <;> cases h
  | response i st' d' =>
    simp only [Client.step] at h
    split at h
    · split at h
      · next p hp =>
        simp only [List.mem_singleton, Prod.mk.injEq, Outcome.answer.injEq] at h
        obtain ⟨rfl, rfl, rfl⟩ := h
        exact ⟨i, rfl, p, hp, rfl⟩
      · cases h
    · cases h
  | sweep now => simp only [Client.step] at h; split at h <;> simp at h
  | disconnect => cases h

theorem outcome_split {es : List CEv} {t : Nat} {o : Outcome} {c : Client} (h : (t, o) ∈ c.outcomes es) :
    ∃ a e b, es = a ++ e :: b ∧ (t, o) ∈ ((c.run a).step e).2 := by
  induction es generalizing c with
  | nil => cases h
  | cons e es ih =>
    simp only [Client.outcomes, List.mem_append] at h
    rcases h with h | h
    · exact ⟨[], e, es, rfl, h⟩
    · obtain ⟨a, e', b, rfl, h'⟩ := ih h
      exact ⟨e :: a, e', b, rfl, h'⟩

theorem waiting_pos {t : Nat} {m : List (Int × Pend)} (h : 0 < waiting t m) : ∃ id p, (id, p) ∈ m ∧ p.tag = t := by
  unfold waiting at h
  have := List.count_pos_iff.mp h
  obtain ⟨e, he, rfl⟩ := List.mem_map.mp this
  exact ⟨e.1, e.2, he, rfl⟩

theorem settled_mem {t : Nat} {outs : List (Nat × Outcome)} (h : 0 < settledTimes t outs) : ∃ o, (t, o) ∈ outs := by
  have := List.count_pos_iff.mp h
  obtain ⟨e, he, rfl⟩ := List.mem_map.mp this
  exact ⟨e.2, he⟩

theorem mem_requests {t T now : Nat} {es : List CEv} (h : CEv.send t T now ∈ es) : t ∈ requests es := by
  obtain ⟨a, b, rfl⟩ := List.append_of_mem h
  rw [requests_append]
  simp [requests]

/-- With distinct requests the call that made a request is determined. -/
theorem send_unique {es : List CEv} (hn : (requests es).Nodup) {t T now T' now' : Nat} (h : CEv.send t T now ∈ es) (h' : CEv.send t T' now' ∈ es) :
    T = T' ∧ now = now' := by
  obtain ⟨a, b, rfl⟩ := List.append_of_mem h
  have hr : requests (a ++ CEv.send t T now :: b) = requests a ++ t :: requests b := by rw [requests_append]; rfl
  rw [hr, List.nodup_append] at hn
  rcases List.mem_append.mp h' with h' | h'
  · exact absurd rfl (hn.2.2 t (mem_requests h') t (by simp))
  · rcases List.mem_cons.mp h' with h' | h'
    · simp only [CEv.send.injEq] at h'
      exact ⟨h'.2.1.symm, h'.2.2.symm⟩
    · exact absurd (mem_requests h') (List.nodup_cons.mp hn.2.1).1

theorem swept {c : Client} {now : Nat} (h : c.sweeping = true ∨ c.pending = []) {id : Int} {p : Pend} (hm : (id, p) ∈ (c.step (.sweep now)).1.pending) :
    now ≤ p.deadline := by
  simp only [Client.step] at hm
  split at hm
  · have := (List.mem_filter.mp hm).2
    simp at this
    exact this
  · next hs =>
    rw [h.resolve_left hs] at hm
    cases hm

end Verif.Sdk
