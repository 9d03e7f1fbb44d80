import Verif.Proofs.StreamDesk6
import Verif.Props.StreamRpc
import Verif.Props.QueueRpc

/-!
# C110: the streams behind the network are one object (linearizability)
-/

namespace Verif.Rpc

open Verif Verif.Wire Verif.Sdk

variable {E I : Type}

/-- **C110.** The server's answers to stream commands (create, delete, exists, publish, join, leave, fetch, ack and seek), from all
connections, in the order in which they were carried out, are answers that the topics of the specification may give, on which one command
after the other is carried out, with the closing of connections, the redelivery and the retention between them. -/
theorem C110_sequential (pr : Printer) (srv : Server E I) {env : Env} {part : E → Streams} {bg : I → Option (Str × Stream.Ev)}
    (hp : StreamPart srv env part bg) (e0 : E) (h0 : part e0 = {}) (es : List (Ev I)) {tr : List (Obs I)} (htr : tr = ((World.init e0).run pr srv es).2)
    (ho : Ordinary pr srv tr) (hk : env.Ok (acts tr)) (hsm : Small (acts tr)) : ∃ D, LRun env bg (acts tr) D := by
  subst htr
  obtain ⟨D, h, _⟩ := (streamed pr hp h0 es ho hk hsm).library _ (List.prefix_refl _)
  exact ⟨D, h⟩

/-- The run of the specification up to and including an act. -/
theorem LRun.split {env : Env} {bg : I → Option (Str × Stream.Ev)} : ∀ (w : List (Act I)) {u : List (Act I)} {a : Act I} {D₁ : Library},
    LRun env bg (u ++ a :: w) D₁ → ∃ D D', LRun env bg u D ∧ LStep env bg D a D' := by
  intro w
  induction w using Sdk.snoc_ind with
  | h0 =>
    intro u a D₁ h
    generalize he : u ++ [a] = B at h
    cases h with
    | start => simp at he
    | @step A b D D' h1 h2 =>
      obtain ⟨rfl, he'⟩ := List.append_inj' he rfl
      injection he' with he'
      subst he'
      exact ⟨D, _, h1, h2⟩
  | h1 w b ih =>
    intro u a D₁ h
    generalize he : u ++ a :: (w ++ [b]) = B at h
    cases h with
    | start => simp at he
    | @step A c D D' h1 h2 =>
      have he' : (u ++ a :: w) ++ [b] = A ++ [c] := by rw [← he]; simp
      obtain ⟨h3, _⟩ := List.append_inj' he' rfl
      rw [← h3] at h1
      exact ih h1

/-- **C110.** A stream command whose promise is settled with an answer takes effect at one moment between the call and the answer: it is
carried out after everything that was carried out when it was called, and the promise tells an answer that the topics of the
specification may give at that moment. -/
theorem C110_linearizable (pr : Printer) (srv : Server E I) {env : Env} {part : E → Streams} {bg : I → Option (Str × Stream.Ev)}
    (hp : StreamPart srv env part bg) (e0 : E) (h0 : part e0 = {}) (es : List (Ev I)) {tr : List (Obs I)} (htr : tr = ((World.init e0).run pr srv es).2)
    (ho : Ordinary pr srv tr) (hk : env.Ok (acts tr)) (hsm : Small (acts tr))
    {a b : List (Obs I)} {p tag : Nat} {st : UInt8} {d : Bytes} {cmd : Cmd} (hs : tr = a ++ .settled p tag (.answer st d) :: b)
    (hc : ∀ c s, Obs.called p tag c s ∈ a → c = cmd) :
    ∃ a₁ a₂ s l now r x y D D', a = a₁ ++ .called p tag cmd s :: a₂ ∧ acts a = acts a₁ ++ x ++ .did l cmd now (some r) :: y ∧
      LRun env bg (acts a₁ ++ x) D ∧ LStep env bg D (.did l cmd now (some r)) D' ∧ shows r = (st, d) := by
  obtain ⟨a1, a2, s, l, now, r, x, y, h1, h2, h3⟩ := C101_carried_out pr srv e0 es htr ho hs hc
  obtain ⟨D₁, hD⟩ := C110_sequential pr srv hp e0 h0 es htr ho hk hsm
  have hA : acts tr = (acts a1 ++ x) ++ .did l cmd now (some r) :: (y ++ actsFrom a (.settled p tag (.answer st d) :: b)) := by
    rw [hs, acts_append, h2]; simp
  rw [hA] at hD
  obtain ⟨D, D', h4, h5⟩ := LRun.split _ hD
  exact ⟨a1, a2, s, l, now, r, x, y, D, D', h1, h2, h4, h5, h3⟩

/-- **C110.** Every stream command that is carried out gets an answer. -/
theorem C110_answered (pr : Printer) (srv : Server E I) {env : Env} {part : E → Streams} {bg : I → Option (Str × Stream.Ev)}
    (hp : StreamPart srv env part bg) (e0 : E) (h0 : part e0 = {}) (es : List (Ev I)) {tr : List (Obs I)} (htr : tr = ((World.init e0).run pr srv es).2)
    (ho : Ordinary pr srv tr) (hk : env.Ok (acts tr)) (hsm : Small (acts tr))
    {u w : List (Act I)} {l now : Nat} {cmd : Cmd} {r : Option Response} (hs : acts tr = u ++ .did l cmd now r :: w) (hq : isStream cmd = true) :
    r ≠ none := by
  obtain ⟨D₁, hD⟩ := C110_sequential pr srv hp e0 h0 es htr ho hk hsm
  rw [hs] at hD
  obtain ⟨D, D', _, h⟩ := LRun.split _ hD
  rintro rfl
  cases h with
  | other _ _ _ _ h => rw [hq] at h; cases h

/-- What a topic of the specification that was created with both limits zero keeps: everything. -/
theorem LRun.keeps {env : Env} {bg : I → Option (Str × Stream.Ev)} {A : List (Act I)} {D : Library} (h : LRun env bg A D) :
    ∀ n L, D n = some L → L.keeps = true → L.head = 1 := by
  induction h with
  | start => intro n L h; cases h
  | @step A a D D' _ ha ih =>
    have one : ∀ (n : Str) (L' : Option Ledger), (∀ L, L' = some L → L.keeps = true → L.head = 1) →
        ∀ m L, (D.set n L') m = some L → L.keeps = true → L.head = 1 := by
      intro n L' hl m L hm
      by_cases h : m = n
      · subst h; rw [lib_same] at hm; exact hl L hm
      · rw [lib_other D _ h] at hm; exact ih m L hm
    have same : ∀ (n : Str) (L L' : Ledger), D n = some L → L'.head = L.head → L'.keeps = L.keeps →
        ∀ m L₁, (D.set n (some L')) m = some L₁ → L₁.keeps = true → L₁.head = 1 := by
      intro n L L' h h1 h2
      refine one n _ (fun L₁ hL hk => ?_)
      injection hL with hL
      subst hL
      rw [h1]
      exact ih n L h (by rw [← h2]; exact hk)
    cases ha with
    | create l now n o h => exact one n _ (fun L hL _ => by injection hL with hL; subst hL; rfl)
    | delete l now n => exact one n _ (fun L hL => by cases hL)
    | publish l now n pl L h => exact same n L _ h rfl rfl
    | join l now n g L c floor h => exact same n L _ h rfl rfl
    | seek l now n g e L h => exact same n L _ h rfl rfl
    | leave l now n g c L C h => exact same n L _ h rfl rfl
    | ack l now n g c s L C at_ k h => exact same n L _ h rfl rfl
    | fetch l now n g c lim w L C d ms h => exact same n L _ h rfl rfl
    | closed x n conn order L hx h => exact same n L _ h rfl rfl
    | late x n now order L hx h => exact same n L _ h rfl rfl
    | removes x n L head hx h hh hk =>
      refine one n _ (fun L₁ hL hk' => ?_)
      injection hL with hL
      subst hL
      exact hk hk'
    | _ => exact ih

/-! ### A concrete server (the one of `Props/StreamRpc.lean`) -/

example : ∃ D, LRun exStreamEnv exStreamBg exStreamActs D :=
  C110_sequential exPrinter exStreamServer exStreamPart {} rfl exStreamEvents exStreamRun.symm exStreamOrdinary exStream_ok exStream_small

/-- The fetch of the second client: both messages, between its call and its answer. -/
example : ∃ a₁ a₂ s l now r x y D D', exStreamTrace.take 14 = a₁ ++ .called 1 2 (.sFetch [115] [103] [97, 97, 97] 1 10 0) s :: a₂ ∧
    acts (exStreamTrace.take 14) = acts a₁ ++ x ++ .did l (.sFetch [115] [103] [97, 97, 97] 1 10 0) now (some r) :: y ∧
    LRun exStreamEnv exStreamBg (acts a₁ ++ x) D ∧ LStep exStreamEnv exStreamBg D (.did l (.sFetch [115] [103] [97, 97, 97] 1 10 0) now (some r)) D' ∧
    shows r = (3, exFetch₁) :=
  C110_linearizable exPrinter exStreamServer exStreamPart {} rfl exStreamEvents exStreamRun.symm exStreamOrdinary exStream_ok exStream_small
    (b := exStreamTrace.drop 15) rfl (by intro c s hm; simp [exStreamTrace, exReqObs] at hm; exact hm.1)

/-- The acknowledgement is answered. -/
example : (some Response.ok) ≠ none :=
  C110_answered exPrinter exStreamServer exStreamPart {} rfl exStreamEvents exStreamRun.symm exStreamOrdinary exStream_ok exStream_small
    (u := exStreamActs.take 5) (w := exStreamActs.drop 6) (l := 1) (now := 6) (cmd := .sAck [115] [103] [97, 97, 97] 1 2) rfl rfl

/-- The specification does not allow every answer: after two publishes the third gets the number 3. -/
example (env : Env) (bg : I → Option (Str × Stream.Ev)) (D D' : Library) (L : Ledger) (n : Str) (h : D n = some L) (hl : L.log.length = 2) (l now s : Nat)
    (pl : Bytes) (hst : LStep env bg D (.did l (.sPub n pl) now (some (.data (wireSeq s)))) D') : wireSeq s = wireSeq 3 := by
  generalize hr : some (Response.data (wireSeq s)) = r at hst
  cases hst with
  | missing => cases hr
  | publish _ _ _ _ L' h' =>
    rw [h] at h'
    injection h' with h'
    subst h'
    injection hr with hr
    injection hr with hr
    rw [hr, hl]
  | other _ _ _ _ h => cases h

/-- Nor does it hand out a message that has been acknowledged. -/
example (env : Env) (bg : I → Option (Str × Stream.Ev)) (D D' : Library) (L : Ledger) (C : Crew) (n g c : Str) (h : D n = some L) (hg : L.crews g = some C)
    (s l now gen lim w : Nat) (hs : C.fate s = .acked) (d : Bytes) (hst : LStep env bg D (.did l (.sFetch n g c gen lim w) now (some (.data d))) D') :
    s ∉ fetchedSeqs (some (.data d)) := by
  generalize hr : some (Response.data d) = r at hst
  cases hst with
  | missing => cases hr
  | fetchUnknown => cases hr
  | fetchFenced => cases hr
  | fetchStranger => cases hr
  | fetchNothing _ _ _ _ _ _ _ _ _ d' _ _ hd =>
    rw [hd]
    have : fetchedSeqs (some (.data (wireFetch []))) = [] := by decide
    rw [this]
    exact List.not_mem_nil
  | fetch _ _ _ _ _ _ _ L' C' d' ms h1 h2 _ hd _ _ ok =>
    rw [h] at h1
    injection h1 with h1
    subst h1
    rw [hg] at h2
    injection h2 with h2
    subst h2
    rw [fetchedSeqs, hd]
    intro hm
    obtain ⟨m, hm', rfl⟩ := List.mem_map.1 hm
    have := (ok m hm').2.2.2.1
    rw [hs] at this
    cases this
  | other _ _ _ _ h => cases h

end Verif.Rpc
