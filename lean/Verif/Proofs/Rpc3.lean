import Verif.Proofs.Rpc2

/-!
# Lemmas about clients, network and server together: the clients
-/

namespace Verif.Rpc

open Verif Verif.Wire Verif.Sdk

variable {E I : Type}

/-! ### What the events outside requests do to a client library -/

theorem outside_frames {e : CEv} (h : outside e = true) : frames [e] = 0 := by cases e <;> first | rfl | cases h

theorem outside_answer {c : Client} {e : CEv} (h : outside e = true) {t : Nat} {st : UInt8} {d : Bytes} :
    (t, Outcome.answer st d) ∉ (c.step e).2 := by
  intro hm
  obtain ⟨id, rfl, _⟩ := answered_step hm
  cases h

theorem outside_pending {c : Client} {e : CEv} (h : outside e = true) {x : Int × Pend} (hx : x ∈ (c.step e).1.pending) :
    x ∈ c.pending := by
  cases e with
  | connect => simp only [Client.step] at hx; split at hx <;> exact hx
  | opened => simp only [Client.step] at hx; split at hx <;> (try split at hx) <;> exact hx
  | refused =>
    simp only [Client.step] at hx
    split at hx
    · split at hx <;> (simp only [cleanup_pending] at hx; cases hx)
    · exact hx
  | lost =>
    simp only [Client.step] at hx
    split at hx
    · simp only [cleanup_pending] at hx; cases hx
    · exact hx
  | timer => simp only [Client.step] at hx; split at hx <;> exact hx
  | send => cases h
  | fire => cases h
  | response => cases h
  | sweep now =>
    simp only [Client.step] at hx
    split at hx
    · exact (List.mem_filter.mp hx).1
    · exact hx
  | disconnect => cases hx

theorem cleanup_socket (c : Client) : c.cleanup.1.socket = .closed := by unfold Client.cleanup; simp only []; split <;> rfl

theorem outside_opened {c : Client} {e : CEv} (h : outside e = true) (ho : (c.step e).1.socket = .opened) :
    c.socket = .opened ∨ e = .opened ∧ c.socket = .connecting := by
  cases e with
  | connect => simp only [Client.step] at ho; split at ho <;> first | exact .inl ho | cases ho
  | opened =>
    cases hc : c.socket with
    | closed => simp only [Client.step, hc] at ho; cases ho
    | connecting => exact .inr ⟨rfl, rfl⟩
    | opened => exact .inl rfl
  | refused =>
    simp only [Client.step] at ho
    split at ho
    · split at ho <;> (simp only [cleanup_socket] at ho; cases ho)
    · exact .inl ho
  | lost =>
    simp only [Client.step] at ho
    split at ho
    · simp only [cleanup_socket] at ho; cases ho
    · exact .inl ho
  | timer => simp only [Client.step] at ho; split at ho <;> first | exact .inl ho | cases ho
  | send => cases h
  | fire => cases h
  | response => cases h
  | sweep now => simp only [Client.step] at ho; split at ho <;> exact .inl ho
  | disconnect => cases ho

theorem closes {c : Client} {e : CEv} (hs : Sound c) (h : outside e = true) (ho : c.socket = .opened)
    (hc : (c.step e).1.socket ≠ .opened) : e = .lost ∨ e = .disconnect ∨ e = .refused := by
  cases e with
  | connect =>
    simp only [Client.step] at hc
    split at hc
    · exact absurd ho hc
    · next hb =>
      have := (hs.begun (by simpa using hb)).1
      rw [ho] at this; cases this
  | opened => simp only [Client.step, ho] at hc; exact absurd rfl hc
  | refused => exact .inr (.inr rfl)
  | lost => exact .inl rfl
  | timer =>
    simp only [Client.step] at hc
    split at hc
    · next ha =>
      have := hs.asleep ha
      rw [ho] at this; cases this
    · exact absurd ho hc
  | send => cases h
  | fire => cases h
  | response => cases h
  | sweep now => simp only [Client.step] at hc; split at hc <;> exact absurd ho hc
  | disconnect => exact .inr (.inl rfl)

theorem Numbered.outside {c : Client} {k : Nat} (h : Numbered c k) {e : CEv} (he : outside e = true) : Numbered (c.step e).1 k := by
  rcases h.step e with h | ⟨_, hf⟩
  · exact h
  · rw [outside_frames he] at hf; cases hf

theorem Sound.pending_opened {c : Client} (h : Sound c) (hc : c.socket ≠ .opened) : c.pending = [] := by
  apply h.outstanding
  cases hh : c.connected with
  | false => rfl
  | true => exact absurd (h.opened.mp hh) hc

/-! ### A chunk of answers -/

theorem responses_mem {fs : List Frame} {e : CEv} (h : e ∈ responses fs) : ∃ f ∈ fs, f.ftype = 2 ∧ e = .response f.id f.op f.payload := by
  induction fs with
  | nil => cases h
  | cons f fs ih =>
    simp only [responses] at h
    split at h
    · next ht =>
      rcases List.mem_cons.mp h with h | h
      · exact ⟨f, List.mem_cons_self .., ht, h⟩
      · obtain ⟨g, hg, h'⟩ := ih h; exact ⟨g, List.mem_cons_of_mem _ hg, h'⟩
    · obtain ⟨g, hg, h'⟩ := ih h; exact ⟨g, List.mem_cons_of_mem _ hg, h'⟩

/-- Answers only take from the requests that wait, and leave the rest of the client alone. -/
structure Fewer (c c' : Client) : Prop where
  sound : Sound c → Sound c'
  numbered : ∀ k, Numbered c k → Numbered c' k
  socket : c'.socket = c.socket
  pending : ∀ x ∈ c'.pending, x ∈ c.pending

theorem fewer_response (c : Client) (id : Nat) (st : UInt8) (d : Bytes) : Fewer c (c.step (.response id st d)).1 := by
  refine ⟨fun h => h.step _, fun k h => ?_, ?_, ?_⟩
  · rcases h.step (.response id st d) with h | ⟨_, hf⟩
    · exact h
    · cases hf
  · simp only [Client.step]
    split
    · next ho => split <;> simp only
    · rfl
  · intro x hx
    simp only [Client.step] at hx
    split at hx
    · split at hx
      · exact (List.mem_filter.mp hx).1
      · exact hx
    · exact hx

theorem fewer_run (c : Client) (es : List CEv) (h : ∀ e ∈ es, ∃ id st d, e = CEv.response id st d) : Fewer c (c.run es) := by
  induction es generalizing c with
  | nil => exact ⟨fun h => h, fun _ h => h, rfl, fun _ h => h⟩
  | cons e es ih =>
    obtain ⟨id, st, d, rfl⟩ := h e (List.mem_cons_self ..)
    have h1 := fewer_response c id st d
    have h2 := ih (c.step (.response id st d)).1 (fun e he => h e (List.mem_cons_of_mem _ he))
    exact ⟨fun x => h2.sound (h1.sound x), fun k x => h2.numbered k (h1.numbered k x), h2.socket.trans h1.socket,
      fun x hx => h1.pending x (h2.pending x hx)⟩

theorem fewer_responses (c : Client) (fs : List Frame) : Fewer c (c.run (responses fs)) :=
  fewer_run c _ (fun e he => by
    obtain ⟨f, _, _, rfl⟩ := responses_mem he
    exact ⟨_, _, _, rfl⟩)

/-- A promise settled with an answer: some frame carried it, under the id of a request that waited for it. -/
theorem answered_chunk {c : Client} {fs : List Frame} {t : Nat} {st : UInt8} {d : Bytes}
    (h : (t, Outcome.answer st d) ∈ c.outcomes (responses fs)) :
    ∃ f ∈ fs, f.ftype = 2 ∧ f.op = st ∧ f.payload = d ∧ ∃ e, ((f.id : Int), e) ∈ c.pending ∧ e.tag = t := by
  obtain ⟨a, e, b, hs, hm⟩ := outcome_split h
  obtain ⟨id, rfl, p, hp, ht⟩ := answered_step hm
  have hmem : CEv.response id st d ∈ responses fs := by rw [hs]; simp
  obtain ⟨f, hf, h2, h3⟩ := responses_mem hmem
  injection h3 with h4 h5 h6
  have hfew := fewer_run c a (fun e he => by
    have : e ∈ responses fs := by rw [hs]; exact List.mem_append.mpr (.inl he)
    obtain ⟨f, _, _, rfl⟩ := responses_mem this
    exact ⟨_, _, _, rfl⟩)
  refine ⟨f, hf, h2, h5.symm, h6.symm, p, ?_, ht⟩
  rw [← h4]
  exact hfew.pending _ (mget_some_mem hp)

end Verif.Rpc
