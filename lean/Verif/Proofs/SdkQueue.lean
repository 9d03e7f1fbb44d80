import Verif.Spec.SdkQueue
import Verif.Proofs.SdkConnection

/-! # Invariants of the queue consumer -/

namespace Verif.Sdk.QueueLoop

open Verif.Sdk

variable (k : Nat)

theorem run_append (s : Loop) (a b : List Ev) : run k s (a ++ b) = run k (run k s a) b := by
  induction a generalizing s with
  | nil => rfl
  | cons e a ih => exact ih _

theorem run_snoc (s : Loop) (a : List Ev) (e : Ev) : run k s (a ++ [e]) = (step k (run k s a) e).1 := by
  rw [run_append]; rfl

theorem outs_append (s : Loop) (a b : List Ev) : outs k s (a ++ b) = outs k s a ++ outs k (run k s a) b := by
  induction a generalizing s with
  | nil => rfl
  | cons e a ih => simp only [List.cons_append, outs, ih, List.append_assoc]; rfl

theorem outs_snoc (s : Loop) (a : List Ev) (e : Ev) : outs k s (a ++ [e]) = outs k s a ++ (step k (run k s a) e).2 := by
  rw [outs_append]; simp [outs]

theorem received_append (s : Loop) (a b : List Ev) : received k s (a ++ b) = received k s a ++ received k (run k s a) b := by
  induction a generalizing s with
  | nil => rfl
  | cons e a ih => simp only [List.cons_append, received, ih, List.append_assoc]; rfl

theorem called_append (a b : List Out) : called (a ++ b) = called a ++ called b := by
  induction a with
  | nil => rfl
  | cons o a ih => cases o <;> simp [called, ih]

theorem about_append (m : Nat) (a b : List Out) : about m (a ++ b) = about m a ++ about m b := by simp [about]

/-- The messages no worker has taken yet. -/
def todo (s : Loop) : List Nat :=
  match s.phase with
  | .batch t _ _ => t
  | _ => []

/-- The workers between two messages. -/
def free (s : Loop) : Nat :=
  match s.phase with
  | .batch _ _ f => f
  | _ => 0

theorem received_snoc (s : Loop) (a : List Ev) (e : Ev) : received k s (a ++ [e]) = received k s a ++ brings (run k s a) e := by
  rw [received_append]; simp [received]

/-- What an event does with the messages of the batch. -/
inductive Move (s : Loop) : Ev → Loop → List Out → Prop where
  | bring (ms : List Nat) (s' : Loop) (hs : todo s = [] ∧ inProgress s = []) (hp : s.phase = .polling)
      (h1 : todo s' = ms) (h2 : inProgress s' = []) (h3 : s'.active = s.active) : Move s (.delivered ms) s' []
  | call (m : Nat) (up : Bool) (s' : Loop) (ha : s.active = true) (h1 : todo s = m :: todo s') (h2 : inProgress s' = inProgress s ++ [m])
      (h3 : s'.active = s.active) : Move s (.take up) s' [.call m]
  | skip (m : Nat) (up : Bool) (s' : Loop) (ha : s.active = false) (h1 : todo s = m :: todo s') (h2 : inProgress s' = inProgress s)
      (h3 : s'.active = s.active) : Move s (.take up) s' (if up then [.nack m] else [])
  | ret (m : Nat) (ok up : Bool) (s' : Loop) (hm : m ∈ inProgress s) (h1 : todo s' = todo s) (h2 : inProgress s' = (inProgress s).erase m)
      (h3 : s'.active = s.active) : Move s (.returned m ok up) s' (if up then (if ok then [.ack m] else [.nack m]) else [])
  | other (e : Ev) (s' : Loop) (os : List Out) (hb : brings s e = []) (h1 : todo s' = todo s) (h2 : inProgress s' = inProgress s)
      (h3 : os = [] ∨ (os = [.consume] ∧ todo s = [] ∧ inProgress s = [] ∧ s.active = true ∧ s'.active = true) ∨
        (os = [.finished] ∧ todo s = [] ∧ inProgress s = [] ∧ s.active = false))
      (h4 : s'.active = s.active ∨ e = .stop ∧ s'.active = false) : Move s e s' os

theorem move (s : Loop) (e : Ev) : Move s e (step k s e).1 (step k s e).2 := by
  have same : brings s e = [] → Move s e s [] := fun h => .other e s [] h rfl rfl (.inl rfl) (.inl rfl)
  cases e with
  | poll up =>
    simp only [step]
    split
    · next hp =>
      split
      · next ha => exact .other _ _ _ rfl (by simp [todo, hp]) (by simp [inProgress, hp]) (.inr (.inr ⟨rfl, by simp [todo, hp], by simp [inProgress, hp], by simpa using ha⟩)) (.inl rfl)
      split
      · exact .other _ _ _ rfl (by simp [todo, hp]) (by simp [inProgress, hp]) (.inl rfl) (.inl rfl)
      · next ha _ =>
        have ha : s.active = true := by simpa using ha
        exact .other _ _ _ rfl (by simp [todo, hp]) (by simp [inProgress, hp]) (.inr (.inl ⟨rfl, by simp [todo, hp], by simp [inProgress, hp], ha, ha⟩)) (.inl rfl)
    · exact same rfl
  | delivered ms =>
    simp only [step]
    split
    · next hp =>
      refine .bring ms _ ⟨by simp [todo, hp], by simp [inProgress, hp]⟩ hp ?_ ?_ rfl
      · by_cases hm : ms = []
        · simp [hm, todo]
        · simp [hm, todo]
      · by_cases hm : ms = []
        · simp [hm, inProgress]
        · simp [hm, inProgress]
    · next hp =>
      refine same ?_
      simp only [brings]
      try (split; (next h => simp_all); rfl)
  | failed =>
    simp only [step]
    split
    · next hp =>
      split
      · next ha => exact .other _ _ _ rfl (by simp [todo, hp]) (by simp [inProgress, hp]) (.inr (.inr ⟨rfl, by simp [todo, hp], by simp [inProgress, hp], by simpa using ha⟩)) (.inl rfl)
      · exact .other _ _ _ rfl (by simp [todo, hp]) (by simp [inProgress, hp]) (.inl rfl) (.inl rfl)
    · exact same rfl
  | wake =>
    simp only [step]
    split
    · next hp => exact .other _ _ _ rfl (by simp [todo, hp]) (by simp [inProgress, hp]) (.inl rfl) (.inl rfl)
    · exact same rfl
  | take up =>
    simp only [step]
    split
    · next m t r f hp =>
      split
      · next ha => exact .call m up _ ha (by simp [todo, hp]) (by simp [inProgress, hp]) rfl
      · next ha => exact .skip m up _ (by simpa using ha) (by simp [todo, hp]) (by simp [inProgress, hp]) rfl
    · next r f hp =>
      refine .other _ _ _ rfl ?_ ?_ (.inl rfl) (.inl rfl)
      · simp only [todo, hp]; by_cases h : r = [] ∧ f = 0 <;> simp [h]
      · simp only [inProgress, hp]; by_cases h : r = [] ∧ f = 0 <;> simp [h]
    · exact same rfl
  | returned m ok up =>
    simp only [step]
    split
    · next t r f hp =>
      split
      · next hm => exact .ret m ok up _ (by simpa [inProgress, hp] using hm) (by simp [todo, hp]) (by simp [inProgress, hp]) rfl
      · exact same rfl
    · exact same rfl
  | stop => exact .other _ _ _ rfl rfl rfl (.inl rfl) (.inr ⟨rfl, rfl⟩)

/-- What can have been done with a message. -/
def fates (m : Nat) : List (List Out) := [[], [.call m], [.call m, .ack m], [.call m, .nack m], [.nack m]]

structure Traced (s : Loop) (os : List Out) (rc : List Nat) (up : Bool) : Prop where
  sub : (called os ++ todo s).Sublist rc
  nd : (todo s ++ inProgress s).Nodup
  got : ∀ m ∈ todo s ++ inProgress s, m ∈ rc
  fresh : ∀ m, m ∉ rc → about m os = []
  td : ∀ m ∈ todo s, about m os = []
  ip : ∀ m ∈ inProgress s, about m os = [.call m]
  fate : ∀ m, about m os ∈ fates m
  settled : up = true → ∀ m ∈ rc, m ∈ todo s ∨ m ∈ inProgress s ∨ Out.ack m ∈ os ∨ Out.nack m ∈ os

theorem about_single {m n : Nat} {o : Out} (h : o = .call n ∨ o = .ack n ∨ o = .nack n) : about m [o] = if n = m then [o] else [] := by
  rcases h with rfl | rfl | rfl <;> by_cases hm : n = m <;> simp [about, Out.of, hm]

theorem traced_init : Traced {} [] [] true := by
  constructor <;> simp [called, todo, inProgress, about, fates]

theorem traced_step {s s' : Loop} {e : Ev} {os o : List Out} {rc : List Nat} {up : Bool} (h : Traced s os rc up)
    (hn : (rc ++ brings s e).Nodup) (hm : Move s e s' o) : Traced s' (os ++ o) (rc ++ brings s e) (up && e.up) := by
  obtain ⟨h1, h2, h3, h4, h5, h6, h7, h8⟩ := h
  cases hm with
  | bring ms _ hs hp g1 g2 g3 =>
    have hb : brings s (.delivered ms) = ms := by simp [brings, hp]
    rw [hb] at hn ⊢
    rw [hs.1, List.append_nil] at h1
    have hnn := List.nodup_append.mp hn
    constructor
    · rw [g1, List.append_nil]; exact h1.append (List.Sublist.refl _)
    · rw [g1, g2, List.append_nil]; exact hnn.2.1
    · rw [g1, g2]; intro m hm; simp at hm; simp [hm]
    · intro m hm; simp at hm; rw [List.append_nil]; exact h4 m hm.1
    · rw [g1]; intro m hm; rw [List.append_nil]; exact h4 m (fun hc => hnn.2.2 m hc m hm rfl)
    · rw [g2]; intro m hm; cases hm
    · intro m; rw [List.append_nil]; exact h7 m
    · intro hu m hm
      simp only [Bool.and_eq_true] at hu
      rw [g1, List.append_nil]
      rcases List.mem_append.mp hm with hm | hm
      · rcases h8 hu.1 m hm with h | h | h
        · rw [hs.1] at h; cases h
        · rw [hs.2] at h; cases h
        · exact .inr (.inr h)
      · exact .inl hm
  | call m u _ ha g1 g2 g3 =>
    have hb : brings s (.take u) = [] := rfl
    rw [hb, List.append_nil] at hn ⊢
    have hperm : (todo s' ++ (inProgress s ++ [m])).Perm (todo s ++ inProgress s) := by
      rw [g1, List.cons_append, ← List.append_assoc]
      exact List.perm_append_comm
    have hmn : m ∉ todo s' ∧ m ∉ inProgress s := by
      rw [g1, List.cons_append, List.nodup_cons] at h2
      simpa using h2.1
    have hab : ∀ n, about n (os ++ [Out.call m]) = about n os ++ if m = n then [.call m] else [] := by
      intro n; rw [about_append, about_single (.inl rfl)]
    constructor
    · rw [called_append]
      show List.Sublist ((called os ++ [m]) ++ todo s') rc
      rw [List.append_assoc]; rw [g1] at h1; exact h1
    · rw [g2]; exact hperm.nodup_iff.mpr h2
    · rw [g2]; intro n hn'; exact h3 n (hperm.mem_iff.mp hn')
    · intro n hn'
      rw [hab, h4 n hn', if_neg]
      · rfl
      · rintro rfl; exact hn' (h3 m (by rw [g1]; simp))
    · intro n hn'
      rw [hab, h5 n (by rw [g1]; simp [hn']), if_neg]
      · rfl
      · rintro rfl; exact hmn.1 hn'
    · rw [g2]; intro n hn'
      rw [hab]
      rcases List.mem_append.mp hn' with hn' | hn'
      · rw [h6 n hn', if_neg]
        · rfl
        · rintro rfl; exact hmn.2 hn'
      · simp only [List.mem_singleton] at hn'
        subst hn'
        rw [h5 n (by rw [g1]; simp), if_pos rfl]; rfl
    · intro n
      rw [hab]
      by_cases hmn' : m = n
      · subst hmn'; rw [h5 m (by rw [g1]; simp), if_pos rfl]; simp [fates]
      · rw [if_neg hmn', List.append_nil]; exact h7 n
    · intro hu n hn'
      simp only [Bool.and_eq_true] at hu
      rw [g2]
      rcases h8 hu.1 n hn' with h | h | h | h
      · rw [g1] at h
        rcases List.mem_cons.mp h with rfl | h
        · exact .inr (.inl (by simp))
        · exact .inl h
      · exact .inr (.inl (by simp [h]))
      · exact .inr (.inr (.inl (by simp [h])))
      · exact .inr (.inr (.inr (by simp [h])))
  | skip m u _ ha g1 g2 g3 =>
    have hb : brings s (.take u) = [] := rfl
    rw [hb, List.append_nil] at hn ⊢
    rw [g1, List.cons_append, List.nodup_cons] at h2
    have hmn : m ∉ todo s' ∧ m ∉ inProgress s := by simpa using h2.1
    have hab : ∀ n, about n (os ++ (if u then [Out.nack m] else [])) = about n os ++ if m = n ∧ u = true then [.nack m] else [] := by
      intro n
      rw [about_append]
      cases u
      · simp [about]
      · simp only [if_true, and_true]; rw [about_single (.inr (.inr rfl))]
    have hca : called (if u then [Out.nack m] else []) = [] := by cases u <;> rfl
    constructor
    · rw [called_append, hca, List.append_nil]
      rw [g1] at h1
      exact (List.Sublist.append_left (List.sublist_cons_self m (todo s')) (called os)).trans h1
    · rw [g2]; exact h2.2
    · rw [g2]; intro n hn'; exact h3 n (by rw [g1, List.cons_append]; exact List.mem_cons_of_mem _ hn')
    · intro n hn'
      rw [hab, h4 n hn', if_neg]
      · rfl
      · rintro ⟨rfl, _⟩; exact hn' (h3 m (by rw [g1]; simp))
    · intro n hn'
      rw [hab, h5 n (by rw [g1]; simp [hn']), if_neg]
      · rfl
      · rintro ⟨rfl, _⟩; exact hmn.1 hn'
    · rw [g2]; intro n hn'
      rw [hab, h6 n hn', if_neg]
      · rfl
      · rintro ⟨rfl, _⟩; exact hmn.2 hn'
    · intro n
      rw [hab]
      by_cases hmn' : m = n ∧ u = true
      · obtain ⟨rfl, hu⟩ := hmn'
        rw [h5 m (by rw [g1]; simp), if_pos ⟨rfl, hu⟩]; simp [fates]
      · rw [if_neg hmn', List.append_nil]; exact h7 n
    · intro hu n hn'
      simp only [Bool.and_eq_true, Ev.up] at hu
      rw [g2]
      rcases h8 hu.1 n hn' with h | h | h | h
      · rw [g1] at h
        rcases List.mem_cons.mp h with rfl | h
        · exact .inr (.inr (.inr (by simp [hu.2])))
        · exact .inl h
      · exact .inr (.inl h)
      · exact .inr (.inr (.inl (by simp [h])))
      · exact .inr (.inr (.inr (by simp [h])))
  | ret m ok u _ hmem g1 g2 g3 =>
    have hb : brings s (.returned m ok u) = [] := rfl
    rw [hb, List.append_nil] at hn ⊢
    have hnd := List.nodup_append.mp h2
    have hmt : m ∉ todo s := fun hc => hnd.2.2 m hc m hmem rfl
    generalize ho : (if u then (if ok then [Out.ack m] else [.nack m]) else []) = o
    have hab : ∀ n, n ≠ m → about n (os ++ o) = about n os := by
      intro n hne
      rw [about_append, ← ho]
      cases u <;> cases ok <;> simp [about, Out.of, Ne.symm hne]
    have hca : called o = [] := by rw [← ho]; cases u <;> cases ok <;> rfl
    have hme : ∀ n, n ∈ (inProgress s).erase m → n ∈ inProgress s ∧ n ≠ m := by
      intro n hn'
      exact ⟨List.mem_of_mem_erase hn', fun hc => by subst hc; exact hnd.2.1.not_mem_erase hn'⟩
    constructor
    · rw [called_append, hca, List.append_nil, g1]; exact h1
    · rw [g1, g2]
      exact List.nodup_append.mpr ⟨hnd.1, hnd.2.1.erase m, fun a ha b hb' => hnd.2.2 a ha b (hme b hb').1⟩
    · rw [g1, g2]; intro n hn'
      refine h3 n ?_
      rcases List.mem_append.mp hn' with h | h
      · exact List.mem_append_left _ h
      · exact List.mem_append_right _ (hme n h).1
    · intro n hn'
      rw [hab n (by rintro rfl; exact hn' (h3 n (List.mem_append_right _ hmem)))]
      exact h4 n hn'
    · rw [g1]; intro n hn'
      rw [hab n (by rintro rfl; exact hmt hn')]
      exact h5 n hn'
    · rw [g2]; intro n hn'
      rw [hab n (hme n hn').2]
      exact h6 n (hme n hn').1
    · intro n
      by_cases hne : n = m
      · subst hne
        rw [about_append, h6 n hmem, ← ho]
        cases u <;> cases ok <;> simp [about, Out.of, fates]
      · rw [hab n hne]; exact h7 n
    · intro hu n hn'
      simp only [Bool.and_eq_true, Ev.up] at hu
      rw [g1, g2]
      by_cases hne : n = m
      · subst hne
        right; right
        rw [← ho, hu.2]
        cases ok <;> simp
      · rcases h8 hu.1 n hn' with h | h | h | h
        · exact .inl h
        · exact .inr (.inl ((List.mem_erase_of_ne hne).mpr h))
        · exact .inr (.inr (.inl (by simp [h])))
        · exact .inr (.inr (.inr (by simp [h])))
  | other _ _ _ hb g1 g2 g3 g4 =>
    rw [hb, List.append_nil] at hn ⊢
    have hab : ∀ n, about n (os ++ o) = about n os := by
      intro n
      rw [about_append]
      rcases g3 with rfl | ⟨rfl, _⟩ | ⟨rfl, _⟩ <;> simp [about, Out.of]
    have hca : called o = [] := by rcases g3 with rfl | ⟨rfl, _⟩ | ⟨rfl, _⟩ <;> rfl
    constructor
    · rw [called_append, hca, List.append_nil, g1]; exact h1
    · rw [g1, g2]; exact h2
    · rw [g1, g2]; exact h3
    · intro n hn'; rw [hab]; exact h4 n hn'
    · rw [g1]; intro n hn'; rw [hab]; exact h5 n hn'
    · rw [g2]; intro n hn'; rw [hab]; exact h6 n hn'
    · intro n; rw [hab]; exact h7 n
    · intro hu n hn'
      simp only [Bool.and_eq_true] at hu
      rw [g1, g2]
      rcases h8 hu.1 n hn' with h | h | h | h
      · exact .inl h
      · exact .inr (.inl h)
      · exact .inr (.inr (.inl (by simp [h])))
      · exact .inr (.inr (.inr (by simp [h])))

theorem traced (es : List Ev) (hn : (received k {} es).Nodup) :
    Traced (run k {} es) (outs k {} es) (received k {} es) (es.all Ev.up) := by
  induction es using snoc_ind with
  | h0 => exact traced_init
  | h1 es e ih =>
    rw [received_snoc] at hn
    rw [run_snoc, outs_snoc, received_snoc]
    have := traced_step (ih (List.nodup_append.mp hn).1) hn (move k _ e)
    simpa using this

theorem workers_le (n : Nat) : workers k n ≤ max 1 k := by unfold workers; split <;> omega

theorem workers_pos {n : Nat} (h : 0 < n) : 0 < workers k n := by unfold workers; split <;> omega

theorem workers_le_len {n : Nat} (h : 0 < n) : workers k n ≤ n := by unfold workers; split <;> omega

/-- The workers are no more than were asked for, and a batch has at least one. -/
def Staffed (s : Loop) : Prop :=
  match s.phase with
  | .batch _ running free => running.length + free ≤ max 1 k ∧ (running ≠ [] ∨ 0 < free)
  | _ => True

theorem staffed_step {s : Loop} (h : Staffed k s) (e : Ev) : Staffed k (step k s e).1 := by
  cases e with
  | poll up =>
    simp only [step]
    split
    · split
      · trivial
      split <;> trivial
    · exact h
  | delivered ms =>
    simp only [step]
    split
    · by_cases hm : ms = []
      · simp [hm, Staffed]
      · simp only [hm, if_false, Staffed, List.length_nil, Nat.zero_add]
        exact ⟨workers_le k _, .inr (workers_pos k (List.length_pos_iff.mpr hm))⟩
    · exact h
  | failed =>
    simp only [step]
    split
    · split <;> trivial
    · exact h
  | wake =>
    simp only [step]
    split
    · trivial
    · exact h
  | take up =>
    simp only [step]
    split
    · next m t r f hp =>
      simp only [Staffed, hp] at h
      split
      · simp only [Staffed, List.length_append, List.length_singleton]
        exact ⟨by omega, .inl (by simp)⟩
      · simp only [Staffed]
        exact ⟨by omega, .inr (by omega)⟩
    · next r f hp =>
      simp only [Staffed, hp] at h
      by_cases hc : r = [] ∧ f = 0
      · simp [hc, Staffed]
      · simp only [hc, if_false, Staffed]
        refine ⟨by omega, ?_⟩
        by_cases hr : r = []
        · right
          have : f ≠ 0 := fun hf => hc ⟨hr, hf⟩
          omega
        · exact .inl hr
    · exact h
  | returned m ok up =>
    simp only [step]
    split
    · next t r f hp =>
      simp only [Staffed, hp] at h
      split
      · next hm =>
        simp only [Staffed, List.length_erase_of_mem hm]
        have : 0 < r.length := List.length_pos_iff.mpr (List.ne_nil_of_mem hm)
        exact ⟨by omega, .inr (by omega)⟩
      · simp only [Staffed, hp]; exact h
    · exact h
  | stop => exact h

theorem staffed (es : List Ev) : Staffed k (run k {} es) := by
  have : ∀ (s : Loop), Staffed k s → Staffed k (run k s es) := by
    induction es with
    | nil => intro s h; exact h
    | cons e es ih => intro s h; exact ih _ (staffed_step k h e)
  exact this {} trivial

theorem inactive_step {s : Loop} (h : s.active = false) (e : Ev) : (step k s e).1.active = false := by
  generalize hs : (step k s e).1 = s'
  have hm := move k s e
  rw [hs] at hm
  generalize (step k s e).2 = o at hm
  cases hm with
  | bring _ _ _ _ _ _ g => rw [g, h]
  | call _ _ _ _ _ _ g => rw [g, h]
  | skip _ _ _ _ _ _ g => rw [g, h]
  | ret _ _ _ _ _ _ _ g => rw [g, h]
  | other _ _ _ _ _ _ _ g =>
    rcases g with g | ⟨_, g⟩
    · rw [g, h]
    · exact g

/-- A step that lets go of a message, or of nothing. -/
theorem active_stop {s : Loop} (e : Ev) (h : s.active = true) (h' : (step k s e).1.active = false) : e = .stop := by
  generalize hs : (step k s e).1 = s' at h'
  have hm := move k s e
  rw [hs] at hm
  generalize (step k s e).2 = o at hm
  cases hm with
  | bring _ _ _ _ _ _ g => rw [g, h] at h'; cases h'
  | call _ _ _ _ _ _ g => rw [g, h] at h'; cases h'
  | skip _ _ _ _ _ _ g => rw [g, h] at h'; cases h'
  | ret _ _ _ _ _ _ _ g => rw [g, h] at h'; cases h'
  | other _ _ _ _ _ _ _ g =>
    rcases g with g | ⟨g, _⟩
    · rw [g, h] at h'; cases h'
    · exact g

theorem inactive_iff (es : List Ev) : (run k {} es).active = false ↔ Ev.stop ∈ es := by
  induction es using snoc_ind with
  | h0 => simp [run]
  | h1 es e ih =>
    rw [run_snoc, List.mem_append]
    constructor
    · intro h
      cases ha : (run k {} es).active with
      | false => exact .inl (ih.mp ha)
      | true => right; rw [active_stop k e ha h]; simp
    · rintro (h | h)
      · exact inactive_step k (ih.mpr h) e
      · simp only [List.mem_singleton] at h
        subst h
        rfl

theorem out_split {es : List Ev} {o : Out} {s : Loop} (h : o ∈ outs k s es) :
    ∃ a e b, es = a ++ e :: b ∧ o ∈ (step k (run k s a) e).2 := by
  induction es generalizing s with
  | nil => cases h
  | cons e es ih =>
    simp only [outs, List.mem_append] at h
    rcases h with h | h
    · exact ⟨[], e, es, rfl, h⟩
    · obtain ⟨a, e', b, rfl, h'⟩ := ih h
      exact ⟨e :: a, e', b, rfl, h'⟩

theorem ack_event {s : Loop} {e : Ev} {m : Nat} (h : Out.ack m ∈ (step k s e).2) : m ∈ inProgress s ∧ e = .returned m true true := by
  generalize ho : (step k s e).2 = o at h
  have hm := move k s e
  rw [ho] at hm
  cases hm with
  | bring => cases h
  | call n => simp at h
  | skip n up => cases up <;> simp at h
  | ret n ok up _ hm =>
    cases up <;> cases ok <;> simp at h
    subst h
    exact ⟨hm, rfl⟩
  | other _ _ _ _ _ _ g => rcases g with rfl | ⟨rfl, _⟩ | ⟨rfl, _⟩ <;> simp at h

theorem nack_event {s : Loop} {e : Ev} {m : Nat} (h : Out.nack m ∈ (step k s e).2) :
    m ∈ inProgress s ∧ e = .returned m false true ∨ s.active = false ∧ m ∈ todo s ∧ e = .take true := by
  generalize ho : (step k s e).2 = o at h
  have hm := move k s e
  rw [ho] at hm
  cases hm with
  | bring => cases h
  | call n => simp at h
  | skip n up _ ha g1 =>
    cases up <;> simp at h
    subst h
    exact .inr ⟨ha, by rw [g1]; simp, rfl⟩
  | ret n ok up _ hm =>
    cases up <;> cases ok <;> simp at h
    subst h
    exact .inl ⟨hm, rfl⟩
  | other _ _ _ _ _ _ g => rcases g with rfl | ⟨rfl, _⟩ | ⟨rfl, _⟩ <;> simp at h

theorem call_event {s : Loop} {e : Ev} {m : Nat} (h : Out.call m ∈ (step k s e).2) : s.active = true ∧ m ∈ todo s := by
  generalize ho : (step k s e).2 = o at h
  have hm := move k s e
  rw [ho] at hm
  cases hm with
  | bring => cases h
  | call n _ _ ha g1 => simp at h; subst h; exact ⟨ha, by rw [g1]; simp⟩
  | skip n up => cases up <;> simp at h
  | ret n ok up _ hm => cases up <;> cases ok <;> simp at h
  | other _ _ _ _ _ _ g => rcases g with rfl | ⟨rfl, _⟩ | ⟨rfl, _⟩ <;> simp at h

theorem idle_event {s : Loop} {e : Ev} (h : Out.consume ∈ (step k s e).2 ∨ Out.finished ∈ (step k s e).2) :
    todo s = [] ∧ inProgress s = [] ∧ (Out.consume ∈ (step k s e).2 → s.active = true) ∧ (Out.finished ∈ (step k s e).2 → s.active = false) := by
  generalize ho : (step k s e).2 = o at h
  have hm := move k s e
  rw [ho] at hm
  cases hm with
  | bring => simp at h
  | call n => simp at h
  | skip n up => cases up <;> simp at h
  | ret n ok up _ hm => cases up <;> cases ok <;> simp at h
  | other _ _ _ _ _ _ g =>
    rcases g with rfl | ⟨rfl, g1, g2, g3, _⟩ | ⟨rfl, g1, g2, g3⟩
    · simp at h
    · exact ⟨g1, g2, fun _ => g3, by simp⟩
    · exact ⟨g1, g2, by simp, fun _ => g3⟩

/-- A callback that was called and has not returned is in progress. -/
theorem called_in_progress (es : List Ev) {m : Nat} (h : Out.call m ∈ outs k {} es) (hr : ∀ ok up, Ev.returned m ok up ∉ es) :
    m ∈ inProgress (run k {} es) := by
  induction es using snoc_ind with
  | h0 => cases h
  | h1 es e ih =>
    rw [run_snoc]
    rw [outs_snoc, List.mem_append] at h
    have hr' : ∀ ok up, Ev.returned m ok up ∉ es := fun ok up hc => hr ok up (List.mem_append_left _ hc)
    have he : ∀ ok up, e ≠ Ev.returned m ok up := fun ok up hc => hr ok up (by simp [hc])
    generalize hs : (run k {} es) = s at h ih
    generalize hs' : (step k s e).1 = s'
    generalize ho : (step k s e).2 = o at h
    have hm := move k s e
    rw [hs', ho] at hm
    cases hm with
    | bring ms _ hb _ _ _ _ =>
      rcases h with h | h
      · have := ih h hr'; rw [hb.2] at this; cases this
      · cases h
    | call n _ _ _ _ g2 =>
      rw [g2]
      rcases h with h | h
      · simp [ih h hr']
      · simp at h; simp [h]
    | skip n up _ _ _ g2 =>
      rw [g2]
      rcases h with h | h
      · exact ih h hr'
      · cases up <;> simp at h
    | ret n ok up _ hm _ g2 =>
      rw [g2]
      have hne : m ≠ n := by rintro rfl; exact he ok up rfl
      rcases h with h | h
      · exact (List.mem_erase_of_ne hne).mpr (ih h hr')
      · cases up <;> cases ok <;> simp at h
    | other _ _ _ _ _ g2 g =>
      rw [g2]
      rcases h with h | h
      · exact ih h hr'
      · rcases g with rfl | ⟨rfl, _⟩ | ⟨rfl, _⟩ <;> simp at h

/-- How many steps a stopped loop can still make, apart from those for messages it has yet to receive. -/
def effort (s : Loop) : Nat :=
  match s.phase with
  | .finished => 0
  | .head => 1
  | .polling => 2
  | .backoff => 2
  | .batch todo running free => 1 + todo.length + 2 * running.length + free

theorem effort_step {s : Loop} (ha : s.active = false) (e : Ev) (hne : (step k s e).1 ≠ s) :
    effort (step k s e).1 + 1 ≤ effort s + 2 * (brings s e).length := by
  cases e with
  | poll up =>
    simp only [step] at hne ⊢
    split at hne
    · next hp =>
      simp only [ha, Bool.not_false, if_true]
      simp [effort, hp]
      try omega
    · exact absurd rfl hne
  | delivered ms =>
    simp only [step] at hne ⊢
    split at hne
    · next hp =>
      have hb : brings s (.delivered ms) = ms := by unfold brings; rw [hp]
      rw [hb]
      by_cases hm : ms = []
      · simp [hm, effort, hp]
      · simp only [hm, if_false, effort, hp, List.length_nil]
        have := workers_le_len k (List.length_pos_iff.mpr hm)
        omega
    · exact absurd rfl hne
  | failed =>
    simp only [step] at hne ⊢
    split at hne
    · next hp =>
      simp only [ha, Bool.not_false, if_true]
      simp [effort, hp]
      try omega
    · exact absurd rfl hne
  | wake =>
    simp only [step] at hne ⊢
    split at hne
    · next hp => simp [effort, hp]
    · exact absurd rfl hne
  | take up =>
    simp only [step] at hne ⊢
    split at hne
    · next m t r f hp =>
      simp only [ha, effort, hp, List.length_cons]
      simp only [Bool.false_eq_true, if_false]
      omega
    · next r f hp =>
      by_cases hc : r = [] ∧ f = 0
      · simp [hc, effort, hp]
      · simp only [hc, if_false, effort, hp, List.length_nil]
        omega
    · exact absurd rfl hne
  | returned m ok up =>
    simp only [step] at hne ⊢
    split at hne
    · next t r f hp =>
      split at hne
      · next hm =>
        simp only [hm, if_true, effort, hp, List.length_erase_of_mem hm]
        have : 0 < r.length := List.length_pos_iff.mpr (List.ne_nil_of_mem hm)
        omega
      · exact absurd rfl hne
    · exact absurd rfl hne
  | stop =>
    refine absurd ?_ hne
    simp only [step]
    cases s
    simp_all

/-- Every event of the history changes the state of the loop. -/
def Effective (s : Loop) : List Ev → Prop
  | [] => True
  | e :: es => (step k s e).1 ≠ s ∧ Effective (step k s e).1 es

end Verif.Sdk.QueueLoop
