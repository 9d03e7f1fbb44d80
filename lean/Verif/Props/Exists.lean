import Verif.Model.SdkExists
import Verif.Spec.Exists
import Verif.Props.EngineCrash

/-!
# C126: what `exists` says

The English statement is in `/verif/properties.jsonl`.
-/

namespace Verif.Rpc

open Verif Verif.Wire Verif.Sdk

variable {E I : Type}

/-! ### The moment at which a request is carried out -/

/-- A request that is answered is carried out at a moment of the trace after its call. -/
theorem moment (pr : Printer) (srv : Server E I) (e0 : E) (es : List (Ev I)) {tr : List (Obs I)} (htr : tr = ((World.init e0).run pr srv es).2)
    (ho : Ordinary pr srv tr) {a b : List (Obs I)} {p tag : Nat} {st : UInt8} {d : Bytes} {cmd : Cmd}
    (hs : tr = a ++ .settled p tag (.answer st d) :: b) (hc : Stands p tag cmd a) :
    ∃ a₁ s a₂ a₃ l now r w, a = a₁ ++ .called p tag cmd s :: a₂ ++ a₃ ∧
      acts tr = acts (a₁ ++ .called p tag cmd s :: a₂) ++ .did l cmd now (some r) :: w ∧
      (∃ w', acts a = acts (a₁ ++ .called p tag cmd s :: a₂) ++ .did l cmd now (some r) :: w') ∧ shows r = (st, d) := by
  subst htr
  obtain ⟨hi, hf⟩ := holds_run pr srv e0 es ho
  obtain ⟨a1, a2, a3, cmd', l, f, now, r, h1, _, h3⟩ := C93_answered pr srv e0 es ho hs
  have hcmd := hc cmd' (some (l, f.id)) (by rw [h1]; simp)
  subst hcmd
  obtain ⟨_, k2, _⟩ := exec_after hi hf ho (o := .called p tag cmd' (some (l, f.id))) (cmd := cmd')
    (by rw [hs, h1]; simp) (by simp [Obs.wrote])
    (show _ = (a1 ++ .called p tag cmd' (some (l, f.id)) :: a2) ++ .executed l f now (some r) :: (a3 ++ .settled p tag (.answer st d) :: b) by
      rw [hs, h1]; simp)
  have key : ∀ z : List (Obs I), acts ((a1 ++ .called p tag cmd' (some (l, f.id)) :: a2) ++ .executed l f now (some r) :: z) =
      acts (a1 ++ .called p tag cmd' (some (l, f.id)) :: a2) ++ .did l cmd' now (some r) ::
        actsFrom ((a1 ++ .called p tag cmd' (some (l, f.id)) :: a2) ++ [.executed l f now (some r)]) z := by
    intro z
    rw [acts_append]
    simp only [actsFrom, actOf, k2]
    simp
  have k3 := key (a3 ++ .settled p tag (.answer st d) :: b)
  have k4 := key a3
  rw [← h1] at k4
  have h5 : ((World.init e0).run pr srv es).2 = (a1 ++ .called p tag cmd' (some (l, f.id)) :: a2) ++ .executed l f now (some r) ::
      (a3 ++ .settled p tag (.answer st d) :: b) := by rw [hs, h1]; simp
  rw [← h5] at k3
  exact ⟨a1, some (l, f.id), a2, .executed l f now (some r) :: a3, l, now, r, _, h1, k3, ⟨_, k4⟩, h3⟩

theorem existsResult_true {o : Outcome} (h : existsResult o = true) : ∃ d, o = .answer 0 d := by
  cases o with
  | answer st d => exact ⟨d, by simp only [existsResult, beq_iff_eq] at h; rw [h]⟩
  | _ => cases h

/-! ### Both brokers -/

/-- If a server's answers to a command `cmd` tell whether `P` holds, `existsResult` tells it to the application. -/
theorem tells_truth (pr : Printer) (srv : Server E I) (e0 : E) (es : List (Ev I)) {tr : List (Obs I)} (htr : tr = ((World.init e0).run pr srv es).2)
    (ho : Ordinary pr srv tr) {cmd : Cmd} {P : List (Act I) → Prop}
    (hP : ∀ u l now r w, acts tr = u ++ .did l cmd now r :: w → (r = some .ok ↔ P u))
    {a b : List (Obs I)} {p tag : Nat} {o : Outcome} (hs : tr = a ++ .settled p tag o :: b) (hc : Stands p tag cmd a) :
    (existsResult o = true → Meanwhile p tag P a) ∧
    (existsResult o = false → (∃ st d, o = .answer st d) → Meanwhile p tag (fun A => ¬ P A) a) := by
  constructor
  · intro h
    obtain ⟨d, rfl⟩ := existsResult_true h
    obtain ⟨a1, s, a2, a3, l, now, r, w, h1, h2, _, h3⟩ := moment pr srv e0 es htr ho hs hc
    refine ⟨a1, cmd, s, a2, a3, h1, (hP _ _ _ _ _ h2).1 ?_⟩
    cases r <;> first | rfl | exact absurd (Prod.mk.inj h3).1 (by decide)
  · rintro h ⟨st, d, rfl⟩
    obtain ⟨a1, s, a2, a3, l, now, r, w, h1, h2, _, h3⟩ := moment pr srv e0 es htr ho hs hc
    refine ⟨a1, cmd, s, a2, a3, h1, fun hp => ?_⟩
    have := (hP _ _ _ _ _ h2).2 hp
    injection this with this
    subst this
    rw [← (Prod.mk.inj h3).1] at h
    cases h

/-- Splitting a trace that does not have `o` in its first part. -/
theorem split_after {α : Type} {o : α} : ∀ {k m x y : List α}, k ++ m = x ++ o :: y → o ∉ k → ∃ z, x = k ++ z ∧ m = z ++ o :: y
  | [], _, x, _, h, _ => ⟨x, rfl, h⟩
  | a :: k, m, [], y, h, hn => by
    injection h with h _
    exact absurd (h ▸ List.mem_cons_self) hn
  | a :: k, m, b :: x, y, h, hn => by
    injection h with h1 h2
    obtain ⟨z, hz, hm⟩ := split_after h2 (fun hk => hn (List.mem_cons_of_mem _ hk))
    exact ⟨z, by rw [hz, h1]; rfl, hm⟩

/-- A command `mk` that was answered and after which `P` holds as long as nothing (`bad`) undoes it: from then on `exists` is answered `true`. -/
theorem stays_true (pr : Printer) (srv : Server E I) (e0 : E) (es : List (Ev I)) {tr : List (Obs I)} (htr : tr = ((World.init e0).run pr srv es).2)
    (ho : Ordinary pr srv tr) {cmd mk : Cmd} {P : List (Act I) → Prop} {bad : Act I → Prop}
    (hP : ∀ u l now r w, acts tr = u ++ .did l cmd now r :: w → (r = some .ok ↔ P u))
    (hM : ∀ u l now r w, (∀ x ∈ w, ¬ bad x) → P (u ++ .did l mk now r :: w))
    {k₁ k₂ k₃ b : List (Obs I)} {p' tag' p tag : Nat} {st' st : UInt8} {d' d : Bytes}
    (hs : tr = k₁ ++ k₂ ++ .settled p' tag' (.answer st' d') :: k₃ ++ .settled p tag (.answer st d) :: b)
    (hu' : Unmade p' tag' k₁) (hc' : Stands p' tag' mk k₂) (hu : Unmade p tag (k₁ ++ k₂)) (hc : Stands p tag cmd k₃)
    (hd : ∀ x ∈ actsFrom k₁ (k₂ ++ .settled p' tag' (.answer st' d') :: k₃), ¬ bad x) : existsResult (.answer st d) = true := by
  have hc0 : Stands p tag cmd (k₁ ++ k₂ ++ .settled p' tag' (.answer st' d') :: k₃) := by
    intro c s hm
    rcases List.mem_append.1 hm with hm | hm
    · exact absurd hm (hu c s)
    · rcases List.mem_cons.1 hm with hm | hm
      · cases hm
      · exact hc c s hm
  have hc1 : Stands p' tag' mk (k₁ ++ k₂) := by
    intro c s hm
    rcases List.mem_append.1 hm with hm | hm
    · exact absurd hm (hu' c s)
    · exact hc' c s hm
  obtain ⟨a1, s, a2, a3, l, now, r, w, h1, h2, _, h3⟩ := moment pr srv e0 es htr ho hs hc0
  obtain ⟨c1, s', c2, c3, l', now', r', w', g1, -, ⟨w2, g2⟩, -⟩ := moment pr srv e0 es htr ho
    (show tr = (k₁ ++ k₂) ++ .settled p' tag' (.answer st' d') :: (k₃ ++ .settled p tag (.answer st d) :: b) by rw [hs]; simp) hc1
  -- the create was carried out after `k₁`
  have e1 : ∃ z, c1 ++ .called p' tag' mk s' :: c2 = k₁ ++ z := by
    rw [List.append_assoc, List.cons_append] at g1
    obtain ⟨z, hz, _⟩ := split_after g1 (hu' _ _)
    exact ⟨z ++ .called p' tag' mk s' :: c2, by rw [hz]; simp⟩
  -- and before the call of `exists`
  have e2 : ∃ z, a1 ++ .called p tag cmd s :: a2 = k₁ ++ k₂ ++ z ∧ ∃ z', k₁ ++ k₂ ++ .settled p' tag' (.answer st' d') :: k₃ = k₁ ++ k₂ ++ z ++ z' := by
    have g3 := h1
    rw [List.append_assoc (a1), List.cons_append] at g3
    obtain ⟨z, hz, _⟩ := split_after g3 (hu _ _)
    refine ⟨z ++ .called p tag cmd s :: a2, by rw [hz]; simp, a3, ?_⟩
    rw [h1, hz]; simp
  obtain ⟨z1, e1⟩ := e1
  obtain ⟨z2, e2, z3, e3⟩ := e2
  have e3' : k₂ ++ .settled p' tag' (.answer st' d') :: k₃ = (k₂ ++ z2) ++ z3 := by
    have := e3
    simp only [List.append_assoc, List.append_cancel_left_eq] at this
    rw [this, List.append_assoc]
  have hp : P (acts (a1 ++ .called p tag cmd s :: a2)) := by
    rw [e2, acts_append, g2, e1, List.append_assoc, List.cons_append]
    refine hM _ _ _ _ _ (fun x hx => hd x ?_)
    rw [e3', actsFrom_append]
    refine List.mem_append.2 (.inl ?_)
    rw [actsFrom_append]
    rcases List.mem_append.1 hx with hx | hx
    · refine List.mem_append.2 (.inl ?_)
      have : acts k₁ ++ actsFrom k₁ k₂ = acts k₁ ++ actsFrom k₁ z1 ++ .did l' mk now' (some r') :: w2 := by
        rw [← acts_append, g2, e1, acts_append]
      rw [List.append_assoc, List.append_cancel_left_eq] at this
      rw [this]; simp [hx]
    · exact List.mem_append.2 (.inr hx)
  have := (hP _ _ _ _ _ h2).2 hp
  injection this with this
  subst this
  rw [← (Prod.mk.inj h3).1]; rfl

/-! ## C126 -/

variable {cfg : Queue.Config} {batch : Nat} {supply : Nat → Queue.Id} {qs : E → Queues} {qbg : I → Option Queue.MEvent}

/-- **C126** (partial: `false` is only right if the request was answered, see `C126_violated`; names that do not end in `.db`, see C36).  `exists` on
a queue resolves to `true`: at some moment since it was called the queue was there, that is, it had been created and not deleted since,
whatever crashes.  It resolves to `false` and its request was answered: at some moment since it was called the queue was not there. -/
theorem C126_queue_partial (pr : Printer) (srv : Server E I) (hp : QueueHost srv cfg batch supply qs qbg) (e0 : E) (h0 : qs e0 = {}) (es : List (Ev I))
    {tr : List (Obs I)} (htr : tr = ((World.init e0).run pr srv es).2) (ho : Ordinary pr srv tr) (hu : Uuids supply ((acts tr).countP isPush))
    (hn : ∀ l q o t r, Act.did l (.qCreate q o) t r ∈ acts tr → Queue.plainName q)
    {a b : List (Obs I)} {p tag : Nat} {q : Str} {o : Outcome} (hs : tr = a ++ .settled p tag o :: b) (hc : Stands p tag (.qExists q) a) :
    (existsResult o = true → Meanwhile p tag (QueueThere q) a) ∧
    (existsResult o = false → (∃ st d, o = .answer st d) → Meanwhile p tag (fun A => ¬ QueueThere q A) a) :=
  tells_truth pr srv e0 es htr ho (fun _ _ _ _ _ h => C112_exists_partial pr srv hp e0 h0 es htr ho hu hn h) hs hc

/-- **C126** (partial: likewise).  A `create` of the queue was answered, then `exists` was called, and no delete of the queue was carried out since
the call of the `create` (`k₁`: what came before that): if the request is answered, `exists` resolves to `true`, whatever crashes. -/
theorem C126_queue_created_partial (pr : Printer) (srv : Server E I) (hp : QueueHost srv cfg batch supply qs qbg) (e0 : E) (h0 : qs e0 = {})
    (es : List (Ev I)) {tr : List (Obs I)} (htr : tr = ((World.init e0).run pr srv es).2) (ho : Ordinary pr srv tr)
    (hu : Uuids supply ((acts tr).countP isPush)) (hn : ∀ l q o t r, Act.did l (.qCreate q o) t r ∈ acts tr → Queue.plainName q)
    {k₁ k₂ k₃ b : List (Obs I)} {p' tag' p tag : Nat} {q : Str} {opts : QueueOpts} {st' st : UInt8} {d' d : Bytes}
    (hs : tr = k₁ ++ k₂ ++ .settled p' tag' (.answer st' d') :: k₃ ++ .settled p tag (.answer st d) :: b)
    (hu' : Unmade p' tag' k₁) (hc' : Stands p' tag' (.qCreate q opts) k₂) (hx : Unmade p tag (k₁ ++ k₂)) (hc : Stands p tag (.qExists q) k₃)
    (hd : ∀ x ∈ actsFrom k₁ (k₂ ++ .settled p' tag' (.answer st' d') :: k₃), ¬ deletes q x) : existsResult (.answer st d) = true :=
  stays_true pr srv e0 es htr ho (fun _ _ _ _ _ h => C112_exists_partial pr srv hp e0 h0 es htr ho hu hn h)
    (fun u l now r w h => ⟨u, l, opts, now, r, w, rfl, h⟩) hs hu' hc' hx hc hd

variable {env : Env} {lossy : Bytes → Str} {ss : E → Streams} {sbg : I → Option Job}

/-- The server's answers about topics. -/
theorem topic_answer (pr : Printer) (srv : Server E I) (hp : StreamHost srv env lossy ss sbg) (e0 : E) (h0 : ss e0 = {}) (es : List (Ev I))
    {tr : List (Obs I)} (htr : tr = ((World.init e0).run pr srv es).2) (ho : Ordinary pr srv tr)
    (hn : ∀ l n o t r, Act.did l (.sCreate n o) t r ∈ acts tr → Paths.Simple n) (htd : env.Tidy) {n : Str} (hsn : Paths.Simple n) (u : List (Act I)) (l now : Nat)
    (r : Option Response) (w : List (Act I)) (hs : acts tr = u ++ .did l (.sExists n) now r :: w) : r = some .ok ↔ TopicThere n u := by
  subst htr
  obtain ⟨x, o, y, h1, h2, h3, h4⟩ := acts_split hs
  cases o with
  | executed l' f now' r' =>
    simp only [actOf] at h3
    obtain ⟨cmd', hc, he⟩ := Option.map_eq_some_iff.1 h3
    injection he with e1 e2 e3 e4
    subst e1 e2 e3 e4
    obtain ⟨hi, hf⟩ := holds_run pr srv e0 es ho
    obtain ⟨cmd'', k1, _, k3⟩ := hf.shown x _ y h1
    rw [hc] at k1
    injection k1 with k1
    subst k1
    have k4 := hp.exec l' now' (.sExists n) (state srv e0 x) rfl
    rw [lived_state hp h0, h2] at k4
    have k5 : r' = (streamExec env l' now' (.sExists n) (Streams.lived env lossy sbg u)).2 := by rw [← k4]; exact k3
    rw [k5]
    refine Iff.trans ?_ (made_iff (env := env) (lossy := lossy) (bg := sbg) (fun l o now r hm => hn l n o now r (by rw [hs]; simp [hm])))
    simp only [streamExec, mhas, htd _ n hsn, Bool.or_false]
    by_cases h : (mget (Streams.lived env lossy sbg u).topics n).isSome = true <;> simp [h]
  | ticked => simp [actOf] at h3
  | called => simp [actOf] at h3
  | fired => simp [actOf] at h3
  | pushed => simp [actOf] at h3
  | settled => simp [actOf] at h3

/-- **C126** (partial: `false` is only right if the request was answered; the name is a file name, and no other directory lies under it).  The same
for a topic. -/
theorem C126_topic_partial (pr : Printer) (srv : Server E I) (hp : StreamHost srv env lossy ss sbg) (e0 : E) (h0 : ss e0 = {}) (es : List (Ev I))
    {tr : List (Obs I)} (htr : tr = ((World.init e0).run pr srv es).2) (ho : Ordinary pr srv tr)
    (hn : ∀ l n o t r, Act.did l (.sCreate n o) t r ∈ acts tr → Paths.Simple n) (htd : env.Tidy) {a b : List (Obs I)} {p tag : Nat} {n : Str} (hsn : Paths.Simple n) {o : Outcome}
    (hs : tr = a ++ .settled p tag o :: b) (hc : Stands p tag (.sExists n) a) :
    (existsResult o = true → Meanwhile p tag (TopicThere n) a) ∧
    (existsResult o = false → (∃ st d, o = .answer st d) → Meanwhile p tag (fun A => ¬ TopicThere n A) a) :=
  tells_truth pr srv e0 es htr ho (topic_answer pr srv hp e0 h0 es htr ho hn htd hsn) hs hc

/-- **C126** (partial: likewise).  The same for a topic that was created. -/
theorem C126_topic_created_partial (pr : Printer) (srv : Server E I) (hp : StreamHost srv env lossy ss sbg) (e0 : E) (h0 : ss e0 = {})
    (es : List (Ev I)) {tr : List (Obs I)} (htr : tr = ((World.init e0).run pr srv es).2) (ho : Ordinary pr srv tr)
    (hn : ∀ l n o t r, Act.did l (.sCreate n o) t r ∈ acts tr → Paths.Simple n) (htd : env.Tidy) {k₁ k₂ k₃ b : List (Obs I)} {p' tag' p tag : Nat} {n : Str}
    (hsn : Paths.Simple n) {opts : StreamOpts} {st' st : UInt8} {d' d : Bytes}
    (hs : tr = k₁ ++ k₂ ++ .settled p' tag' (.answer st' d') :: k₃ ++ .settled p tag (.answer st d) :: b)
    (hu' : Unmade p' tag' k₁) (hc' : Stands p' tag' (.sCreate n opts) k₂) (hx : Unmade p tag (k₁ ++ k₂)) (hc : Stands p tag (.sExists n) k₃)
    (hd : ∀ x ∈ actsFrom k₁ (k₂ ++ .settled p' tag' (.answer st' d') :: k₃), ¬ dropsTopic n x) : existsResult (.answer st d) = true :=
  stays_true pr srv e0 es htr ho (topic_answer pr srv hp e0 h0 es htr ho hn htd hsn) (fun u l now r w h => ⟨u, l, opts, now, r, w, rfl, h⟩) hs hu' hc' hx hc hd

/-! ### A concrete server -/

/-- A client creates a queue and a topic; the server crashes, and the client comes back, asks for both and for a queue that was never created; it asks
for the first queue again, and the connection breaks. -/
def exThereEvents : List (Ev Fate) :=
  [.lib 0 .connect, .lib 0 .opened]
  ++ exMortalReq 0 1 1 (.qCreate [107] ⟨none, none⟩)
  ++ exMortalReq 0 2 2 (.sCreate [115] ⟨none⟩)
  ++ [.tick (.crash 50 0 0), .drop 0, .lib 0 .lost, .lib 0 .timer, .lib 0 .opened]
  ++ exMortalReq 1 3 51 (.qExists [107])
  ++ exMortalReq 1 4 52 (.sExists [115])
  ++ exMortalReq 1 5 53 (.qExists [120])
  ++ [.call 0 6 5000 0 (.qExists [107]), .lib 0 .lost]

def exThereTrace : List (Obs Fate) :=
  exMortalObs 0 1 1 (.qCreate [107] ⟨none, none⟩) 16 [0, 0, 0, 1, 107, 0, 0, 0, 2, 123, 125] .ok
  ++ exMortalObs 0 2 2 (.sCreate [115] ⟨none⟩) 48 [0, 0, 0, 1, 115, 0, 0, 0, 2, 123, 125] .ok
  ++ [.ticked (.crash 50 0 0)]
  ++ exMortalObs 1 3 51 (.qExists [107]) 20 [0, 0, 0, 1, 107] .ok
  ++ exMortalObs 1 4 52 (.sExists [115]) 53 [0, 0, 0, 1, 115] .ok
  ++ exMortalObs 1 5 53 (.qExists [120]) 20 [0, 0, 0, 1, 120] (.error (ascii "Queue not found"))
  ++ [.called 0 6 (.qExists [107]) (some (1, 6)), .settled 0 6 .closed]

set_option maxRecDepth 100000 in
theorem exThereRun : ((World.init exEngine0).run exPrinter exMortal exThereEvents).2 = exThereTrace :=
  told_map (by decide +kernel) (by decide +kernel)

theorem exThereOrdinary : Ordinary exPrinter exMortal exThereTrace := by
  refine ⟨?_, ?_, ?_, fun p => countP_le _ _ _ (by decide)⟩
  · intro o ho cmd hc
    have : cmd ∈ exThereTrace.filterMap Obs.cmd? := List.mem_filterMap.2 ⟨o, ho, hc⟩
    simp only [exThereTrace, exMortalObs, List.cons_append, List.nil_append, Obs.cmd?, List.filterMap, List.mem_cons, List.not_mem_nil, or_false] at this
    rcases this with rfl | rfl | rfl | rfl | rfl | rfl
    all_goals
      first
      | refine ⟨show StrOk _ by decide, ⟨by decide, by decide⟩, ?_⟩
        intro op body hb
        injection hb with hb; injection hb with h1 h2; subst h2; decide
      | refine ⟨show StrOk _ by decide, trivial, ?_⟩
        intro op body hb
        injection hb with hb; injection hb with h1 h2; subst h2; decide
  · intro l f now r hm
    simp only [exThereTrace, exMortalObs, List.mem_append, List.mem_cons, List.not_mem_nil, or_false, or_assoc, reduceCtorEq, false_or, Obs.executed.injEq,
      Option.some.injEq] at hm
    rcases hm with ⟨rfl, rfl, rfl, rfl⟩ | ⟨rfl, rfl, rfl, rfl⟩ | ⟨rfl, rfl, rfl, rfl⟩ | ⟨rfl, rfl, rfl, rfl⟩ | ⟨rfl, rfl, rfl, rfl⟩ <;> decide
  · intro l p hm
    simp [exThereTrace, exMortalObs] at hm

def exThereActs : List (Act Fate) :=
  [.did 0 (.qCreate [107] ⟨none, none⟩) 1 (some .ok), .did 0 (.sCreate [115] ⟨none⟩) 2 (some .ok), .ticked (.crash 50 0 0),
   .did 1 (.qExists [107]) 51 (some .ok), .did 1 (.sExists [115]) 52 (some .ok), .did 1 (.qExists [120]) 53 (some (.error (ascii "Queue not found")))]

theorem exThere_acts : acts exThereTrace = exThereActs := rfl

theorem exThere_names : ∀ l q o t r, Act.did l (.qCreate q o) t r ∈ acts exThereTrace → Queue.plainName q := by
  intro l q o t r h
  rw [exThere_acts] at h
  simp [exThereActs] at h
  rw [h.2.1.1]
  exact show ¬ Queue.dotDb <:+ [107] ∧ (47 : UInt8) ∉ [107] by decide

theorem exThere_topics : ∀ l n o t r, Act.did l (.sCreate n o) t r ∈ acts exThereTrace → Paths.Simple n := by
  intro l n o t r h
  rw [exThere_acts] at h
  simp [exThereActs] at h
  rw [h.2.1.1]
  decide

theorem exThere_uuids : Uuids exConf.supply ((acts exThereTrace).countP isPush) := by
  rw [exThere_acts, show exThereActs.countP isPush = 0 from rfl]
  exact ⟨fun i j hi => absurd hi (Nat.not_lt_zero i), fun i hi => absurd hi (Nat.not_lt_zero i)⟩

/-- `C126_queue_partial`: the queue that was never created. -/
example : Meanwhile 0 5 (fun A => ¬ QueueThere [120] A) (exThereTrace.take 15) :=
  (C126_queue_partial exPrinter exMortal (C121_hosts exConf (fun b => b) 1000 exSerde [] []).2.1 exEngine0 rfl _ exThereRun.symm exThereOrdinary exThere_uuids
    exThere_names (a := exThereTrace.take 15) (b := exThereTrace.drop 16) (q := [120]) (o := .answer 1 (be32 15 ++ ascii "Queue not found")) rfl
    (by intro c s h; simp [exThereTrace, exMortalObs] at h; exact h.1)).2 rfl ⟨_, _, rfl⟩

/-- `C126_queue_created_partial`: after the crash, for the queue that was created before it. -/
example : existsResult (.answer 0 []) = true :=
  C126_queue_created_partial exPrinter exMortal (C121_hosts exConf (fun b => b) 1000 exSerde [] []).2.1 exEngine0 rfl _ exThereRun.symm exThereOrdinary exThere_uuids
    exThere_names (k₁ := []) (k₂ := exThereTrace.take 2) (k₃ := (exThereTrace.take 9).drop 3) (b := exThereTrace.drop 10) (p' := 0) (tag' := 1) (p := 0) (tag := 3)
    (q := [107]) (opts := ⟨none, none⟩) (st' := 0) (d' := []) rfl (fun _ _ h => nomatch h)
    (by intro c s h; simp [exThereTrace, exMortalObs] at h; exact h.1)
    (by intro c s h; simp [exThereTrace, exMortalObs] at h)
    (by intro c s h; simp [exThereTrace, exMortalObs] at h; exact h.1)
    (by
      rintro x hx ⟨l, now, r, rfl⟩
      have h' : Act.did l (.qDelete [107]) now r ∈ exThereActs.take 4 := hx
      simp [exThereActs] at h')

/-- `C126_topic_created_partial`: likewise for the topic. -/
example : existsResult (.answer 0 []) = true :=
  C126_topic_created_partial exPrinter exMortal (C121_hosts exConf (fun b => b) 1000 exSerde [] []).2.2 exEngine0 rfl _ exThereRun.symm exThereOrdinary
    exThere_topics (fun _ _ _ => rfl) (k₁ := exThereTrace.take 3) (k₂ := (exThereTrace.take 5).drop 3) (k₃ := (exThereTrace.take 12).drop 6) (b := exThereTrace.drop 13)
    (p' := 0) (tag' := 2) (p := 0) (tag := 4)
    (n := [115]) (hsn := by decide) (opts := ⟨none⟩) (st' := 0) (d' := []) rfl (by intro c s h; simp [exThereTrace, exMortalObs] at h)
    (by intro c s h; simp [exThereTrace, exMortalObs] at h; exact h.1)
    (by intro c s h; simp [exThereTrace, exMortalObs] at h)
    (by intro c s h; simp [exThereTrace, exMortalObs] at h; exact h.1)
    (by
      rintro x hx ⟨l, now, r, rfl⟩
      have h' : Act.did l (.sDelete [115]) now r ∈ (exThereActs.take 5).drop 1 := hx
      simp [exThereActs] at h')

/-- **C126 is violated** if the connection breaks: `exists` resolves to `false`, although the queue is there all the time since long before the
call (it was created in the first moment of the run, nothing was ever deleted, and the server told so just before). -/
theorem C126_violated :
    ((World.init exEngine0).run exPrinter exMortal exThereEvents).2 = exThereTrace.take 17 ++ [.settled 0 6 .closed] ∧
    Stands 0 6 (.qExists [107]) exThereTrace ∧ existsResult .closed = false ∧
    (∀ k, 2 ≤ k → QueueThere [107] (acts (exThereTrace.take k))) ∧ ¬ Meanwhile 0 6 (fun A => ¬ QueueThere [107] A) (exThereTrace.take 17) := by
  have key : ∀ a b : List (Obs Fate), exThereTrace = exThereTrace.take 2 ++ a ++ b → QueueThere [107] (acts (exThereTrace.take 2 ++ a)) := by
    intro a b hab
    have h1 : acts exThereTrace = acts (exThereTrace.take 2 ++ a) ++ actsFrom (exThereTrace.take 2 ++ a) b := by
      rw [← acts_append, ← hab]
    rw [exThere_acts] at h1
    rw [acts_append] at h1 ⊢
    refine ⟨[], 0, ⟨none, none⟩, 1, some .ok, actsFrom (exThereTrace.take 2) a, rfl, ?_⟩
    rintro x hx ⟨l, now, r, rfl⟩
    have : Act.did l (.qDelete [107]) now r ∈ exThereActs := by rw [h1]; simp [hx]
    simp [exThereActs] at this
  refine ⟨exThereRun, ?_, rfl, ?_, ?_⟩
  · intro c s h; simp [exThereTrace, exMortalObs] at h; exact h.1
  · intro k hk
    have h1 : exThereTrace.take k = exThereTrace.take 2 ++ (exThereTrace.take k).drop 2 := by
      have := (List.take_append_drop 2 (exThereTrace.take k)).symm
      rwa [List.take_take, Nat.min_eq_left hk] at this
    rw [h1]
    exact key _ (exThereTrace.drop k) (by rw [← h1, List.take_append_drop])
  · rintro ⟨a1, cmd, s, a2, a3, h1, h2⟩
    apply h2
    have h4 : exThereTrace.take 16 ++ [Obs.called 0 6 (.qExists [107]) (some (1, 6))] = a1 ++ Obs.called 0 6 cmd s :: (a2 ++ a3) := by
      rw [show exThereTrace.take 16 ++ [Obs.called 0 6 (.qExists [107]) (some (1, 6))] = exThereTrace.take 17 from rfl, h1]; simp
    obtain ⟨z, hz, _⟩ := split_after h4 (by simp [exThereTrace, exMortalObs])
    have h5 : a1 ++ .called 0 6 cmd s :: a2 = exThereTrace.take 2 ++ ((exThereTrace.take 16).drop 2 ++ z ++ .called 0 6 cmd s :: a2) := by
      have h6 : exThereTrace.take 2 ++ (exThereTrace.take 16).drop 2 = exThereTrace.take 16 := rfl
      rw [hz, ← List.append_assoc, ← List.append_assoc, h6]
    rw [h5]
    refine key _ (a3 ++ exThereTrace.drop 17) ?_
    rw [← h5, ← List.append_assoc, ← h1, List.take_append_drop]

end Verif.Rpc
