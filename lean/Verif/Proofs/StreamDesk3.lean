import Verif.Proofs.StreamDesk2

/-!
# Lemmas about streams as one sequential object: the books of a topic
-/

namespace Verif.Rpc

open Verif Verif.Wire Verif.Sdk
open Verif.Stream (Topic GErr Query Msg FetchOp SCmd View Rel GRel Fate)

variable {E I : Type} {env : Env} {bg : I → Option (Str × Stream.Ev)}

/-! ### What a step does to the books -/

/-- Change a group that is there. -/
def Ledger.on (L : Ledger) (g : Str) (f : Crew → Crew) : Ledger :=
  match L.crews g with
  | some C => L.set g (f C)
  | none => L

/-- What a step of the topic and its result do to the books. -/
def Ledger.note (env : Env) (L : Ledger) : Stream.Ev × Stream.Out → Ledger
  | (.publish ts p, _) => { L with log := L.log ++ [(ts, p)] }
  | (.join g conn c, _) => L.set g { L.crew g with members := (c, conn) :: (L.crew g).members }
  | (.leave g c _ _, .ok) =>
    L.on g (fun C => { C.sees env (.left (fun id => decide (id = c))) with members := C.members.filter (fun m => m.1 ≠ c) })
  | (.disconnect conn _, _) => L.all (Crew.lose env conn)
  | (.attempt _ now, .fetched q (.ok ms)) => L.on q.group (fun C => C.hand env q.consumer now (ms.map (·.seq)))
  | (.finish _ now, .fetched q (.ok ms)) => L.on q.group (fun C => C.hand env q.consumer now (ms.map (·.seq)))
  | (.ack g _ _ s, .ok) => L.on g (fun C => C.sees env (.acked s))
  | (.seek g toEnd, _) => L.set g ⟨(L.crew g).gen + 1, [], owedFrom (if toEnd then L.log.length + 1 else L.head)⟩
  | (.tick now _, _) => L.all (fun C => C.sees env (.tick now))
  | (.retainDone, .retained head) => { L.all (fun C => C.sees env (.removed head)) with head }
  | _ => L

/-- The group agrees with its observer. -/
def Alike (v : View) : Option Crew → Prop
  | none => v.known = false ∧ v.gen = 1 ∧ v.members = []
  | some C => v.known = true ∧ C = ⟨v.gen, v.members, v.fate⟩

/-- The books agree with the observer of group `g`. -/
structure Agree (v : View) (L : Ledger) (g : Str) : Prop where
  head : v.head = L.head
  next : v.next = L.log.length + 1
  crew : Alike v (L.crews g)

theorem Agree.gen {v : View} {L : Ledger} {g : Str} (h : Agree v L g) : (L.crew g).gen = v.gen := by
  have := h.crew
  unfold Ledger.crew
  cases hc : L.crews g with
  | none => rw [hc] at this; exact this.2.1.symm
  | some C => rw [hc] at this; rw [this.2]; rfl

theorem Agree.members {v : View} {L : Ledger} {g : Str} (h : Agree v L g) : (L.crew g).members = v.members := by
  have := h.crew
  unfold Ledger.crew
  cases hc : L.crews g with
  | none => rw [hc] at this; exact this.2.2.symm
  | some C => rw [hc] at this; rw [this.2]; rfl

theorem hand_view (v : View) (c : Str) (now : Nat) : ∀ (ms : List Msg) (C : Crew),
    C.hand env c now (ms.map (·.seq)) = ⟨C.gen, C.members, (Stream.deliveries c now ms).foldl (Stream.fates env.sys.maxDeliveries env.sys.ackWait) C.fate⟩ := by
  intro ms
  induction ms with
  | nil => intro C; rfl
  | cons m ms ih =>
    intro C
    exact ih (C.sees env (.delivered c now m.seq))

theorem set_same (L : Ledger) (g : Str) (C : Crew) : (L.set g C).crews g = some C := by simp [Ledger.set]

theorem set_other (L : Ledger) {g h : Str} (C : Crew) (hn : h ≠ g) : (L.set g C).crews h = L.crews h := by simp [Ledger.set, hn]

theorem Agree.on {v v' : View} {L : Ledger} {g h : Str} {f : Crew → Crew} (ha : Agree v L g)
    (h1 : v'.head = v.head) (h2 : v'.next = v.next) (hne : h ≠ g → v' = v)
    (hno : h = g → L.crews g = none → Alike v' none)
    (hso : h = g → ∀ C, L.crews g = some C → v.known = true → C = ⟨v.gen, v.members, v.fate⟩ → Alike v' (some (f C))) : Agree v' (L.on h f) g := by
  unfold Ledger.on
  by_cases hh : h = g
  · subst hh
    cases hc : L.crews h with
    | none => exact ⟨by rw [h1]; exact ha.head, by rw [h2]; exact ha.next, by rw [hc]; exact hno rfl hc⟩
    | some C =>
      have := ha.crew
      rw [hc] at this
      exact ⟨by rw [h1]; exact ha.head, by rw [h2]; exact ha.next, by rw [set_same]; exact hso rfl C hc this.1 this.2⟩
  · have := hne hh
    subst this
    split
    · exact ⟨ha.head, ha.next, by rw [set_other _ _ (Ne.symm hh)]; exact ha.crew⟩
    · exact ha

theorem Agree.all {v v' : View} {L : Ledger} {g : Str} {f : Crew → Crew} {head : Nat} (ha : Agree v L g)
    (h1 : v'.head = head) (h2 : v'.next = v.next)
    (hno : Alike v none → Alike v' none)
    (hso : ∀ C, v.known = true → C = ⟨v.gen, v.members, v.fate⟩ → Alike v' (some (f C))) : Agree v' { L.all f with head } g := by
  refine ⟨h1, by rw [h2]; exact ha.next, ?_⟩
  have := ha.crew
  show Alike v' ((L.crews g).map f)
  cases hc : L.crews g with
  | none => rw [hc] at this; exact hno this
  | some C => rw [hc] at this; exact hso C this.1 this.2

/-- The books follow what the observers see. -/
theorem Agree.step {v : View} {L : Ledger} {g : Str} (ha : Agree v L g) (x : Stream.Ev × Stream.Out) :
    Agree (v.step env.sys.maxDeliveries env.sys.ackWait g x) (L.note env x) g := by
  obtain ⟨e, o⟩ := x
  have given : ∀ now q ms, Agree (v.answer env.sys.maxDeliveries env.sys.ackWait g now (.fetched q (.ok ms)))
      (L.on q.group (fun C => C.hand env q.consumer now (ms.map (·.seq)))) g := by
    intro now q ms
    refine ha.on ?_ ?_ ?_ ?_ ?_
    · simp only [View.answer]; split <;> rfl
    · simp only [View.answer]; split <;> rfl
    · intro hn; simp only [View.answer, if_neg hn]
    · intro hq hn
      have := ha.crew
      rw [hn] at this
      simp only [View.answer, if_pos hq]
      exact this
    · intro hq C hc hk hC
      simp only [View.answer, if_pos hq]
      refine ⟨hk, ?_⟩
      rw [hand_view v, hC]
      rfl
  cases e with
  | publish ts p =>
    refine ⟨ha.head, ?_, ha.crew⟩
    simp only [View.step, Ledger.note, List.length_append, List.length_singleton, ha.next]
  | join h conn c =>
    simp only [View.step, Ledger.note]
    by_cases hh : h = g
    · subst hh
      rw [if_pos rfl]
      refine ⟨?_, ?_, ?_⟩
      · dsimp only; split <;> exact ha.head
      · dsimp only; split <;> exact ha.next
      · rw [set_same]
        refine ⟨rfl, ?_⟩
        have h1 := ha.crew
        have h2 := ha.gen
        have h3 := ha.members
        unfold Ledger.crew at *
        cases hc : L.crews h with
        | none =>
          rw [hc] at h1 h2 h3
          simp only [h1.1, Option.getD_none, View.obs, Bool.false_eq_true, if_false, List.foldl_cons, List.foldl_nil] at h2 h3 ⊢
          rw [h3, ← h2]
          simp only [Crew.mk.injEq, true_and]
          refine funext fun s => ?_
          rw [ha.head]; rfl
        | some C =>
          rw [hc] at h1
          simp only [h1.1, Option.getD_some, if_true, h1.2]
    · rw [if_neg hh]
      exact ⟨ha.head, ha.next, by rw [set_other _ _ (Ne.symm hh)]; exact ha.crew⟩
  | leave h c gen order =>
    cases o with
    | ok =>
      refine ha.on ?_ ?_ ?_ ?_ ?_
      · simp only [View.step]; split <;> rfl
      · simp only [View.step]; split <;> rfl
      · intro hn; simp only [View.step, if_neg hn]
      · intro hq hn
        have := ha.crew
        rw [hn] at this
        simp only [View.step, if_pos hq]
        exact ⟨this.1, this.2.1, by simp [this.2.2]⟩
      · intro hq C hc hk hC
        simp only [View.step, if_pos hq]
        refine ⟨hk, ?_⟩
        subst hC
        rfl
    | _ => exact ha
  | disconnect conn order =>
    have := ha.all (v' := v.step env.sys.maxDeliveries env.sys.ackWait g (.disconnect conn order, o)) (f := Crew.lose env conn) (head := L.head)
      ha.head rfl ?_ ?_
    · exact this
    · intro h; exact ⟨h.1, h.2.1, by simp [View.step, h.2.2]⟩
    · intro C hk hC
      subst hC
      exact ⟨hk, rfl⟩
  | attempt id now =>
    cases o with
    | fetched q r =>
      cases r with
      | ok ms => exact given now q ms
      | error e => exact ha
    | _ => exact ha
  | finish id now =>
    cases o with
    | fetched q r =>
      cases r with
      | ok ms => exact given now q ms
      | error e => exact ha
    | _ => exact ha
  | ack h c gen s =>
    cases o with
    | ok =>
      refine ha.on ?_ ?_ ?_ ?_ ?_
      · simp only [View.step]; split <;> rfl
      · simp only [View.step]; split <;> rfl
      · intro hn; simp only [View.step, if_neg hn]
      · intro hq hn
        have := ha.crew
        rw [hn] at this
        simp only [View.step, if_pos hq]
        exact this
      · intro hq C hc hk hC
        simp only [View.step, if_pos hq]
        refine ⟨hk, ?_⟩
        subst hC
        rfl
    | _ => exact ha
  | seek h toEnd =>
    simp only [View.step, Ledger.note]
    by_cases hh : h = g
    · subst hh
      rw [if_pos rfl]
      refine ⟨ha.head, ha.next, ?_⟩
      rw [set_same]
      refine ⟨rfl, ?_⟩
      rw [ha.gen]
      simp only [View.obs, List.foldl_cons, List.foldl_nil, Crew.mk.injEq, true_and]
      refine funext fun s => ?_
      rw [ha.head, ha.next]; rfl
    · rw [if_neg hh]
      exact ⟨ha.head, ha.next, by rw [set_other _ _ (Ne.symm hh)]; exact ha.crew⟩
  | tick now order =>
    have := ha.all (v' := v.step env.sys.maxDeliveries env.sys.ackWait g (.tick now order, o)) (f := fun C => C.sees env (.tick now)) (head := L.head)
      ha.head rfl ?_ ?_
    · exact this
    · intro h; exact h
    · intro C hk hC
      subst hC
      exact ⟨hk, rfl⟩
  | retainDone =>
    cases o with
    | retained head =>
      refine ha.all (v' := v.step env.sys.maxDeliveries env.sys.ackWait g (.retainDone, .retained head)) rfl rfl ?_ ?_
      · intro h; exact h
      · intro C hk hC
        subst hC
        exact ⟨hk, rfl⟩
    | _ => exact ha
  | _ => exact ha

/-! ### The books of a history -/

/-- `L` are the books of the topic after the history `es`. -/
structure Written (env : Env) (o : StreamOpts) (es : List Stream.Ev) (L : Ledger) : Prop where
  log : L.log = (Stream.published 1 es).map (fun m => (m.timestamp, m.payload))
  agree : ∀ g, Agree (Stream.viewAfter env.crc (newTopic env o) g es) L g
  keeps : L.keeps = (o.retention == some (some 0, some 0))

theorem Written.start (env : Env) (o : StreamOpts) : Written env o [] (.empty o) :=
  ⟨rfl, (fun _ => ⟨rfl, rfl, rfl, rfl, rfl⟩), rfl⟩

theorem note_log (L : Ledger) (x : Stream.Ev × Stream.Out) (n : Nat) :
    (L.note env x).log = L.log ++ (Stream.published n [x.1]).map (fun m => (m.timestamp, m.payload)) := by
  have on_log : ∀ (g : Str) (f : Crew → Crew), (L.on g f).log = L.log := by
    intro g f; unfold Ledger.on; split <;> rfl
  obtain ⟨e, o⟩ := x
  cases e with
  | publish ts p => rfl
  | leave => cases o <;> simp [Ledger.note, Stream.published, on_log]
  | ack => cases o <;> simp [Ledger.note, Stream.published, on_log]
  | attempt =>
    cases o with
    | fetched q r => cases r <;> simp [Ledger.note, Stream.published, on_log]
    | _ => simp [Ledger.note, Stream.published]
  | finish =>
    cases o with
    | fetched q r => cases r <;> simp [Ledger.note, Stream.published, on_log]
    | _ => simp [Ledger.note, Stream.published]
  | retainDone => cases o <;> simp [Ledger.note, Stream.published, Ledger.all]
  | _ => simp [Ledger.note, Stream.published, Ledger.all, Ledger.set]

theorem note_keeps (L : Ledger) (x : Stream.Ev × Stream.Out) : (L.note env x).keeps = L.keeps := by
  have on_keeps : ∀ (g : Str) (f : Crew → Crew), (L.on g f).keeps = L.keeps := by
    intro g f; unfold Ledger.on; split <;> rfl
  obtain ⟨e, o⟩ := x
  cases e with
  | leave => cases o <;> simp [Ledger.note, on_keeps]
  | ack => cases o <;> simp [Ledger.note, on_keeps]
  | attempt =>
    cases o with
    | fetched q r => cases r <;> simp [Ledger.note, on_keeps]
    | _ => simp [Ledger.note]
  | finish =>
    cases o with
    | fetched q r => cases r <;> simp [Ledger.note, on_keeps]
    | _ => simp [Ledger.note]
  | retainDone => cases o <;> simp [Ledger.note, Ledger.all]
  | _ => simp [Ledger.note, Ledger.all, Ledger.set]

theorem Written.step {o : StreamOpts} {es : List Stream.Ev} {L : Ledger} (h : Written env o es L) (e : Stream.Ev) :
    Written env o (es ++ [e]) (L.note env (e, (((newTopic env o).run env.crc es).step env.crc e).2)) := by
  refine ⟨?_, fun g => ?_, by rw [note_keeps]; exact h.keeps⟩
  · rw [note_log _ _ (1 + (Stream.published 1 es).length), h.log, Stream.published_append, List.map_append]
  · rw [Stream.viewAfter_snoc]
    exact (h.agree g).step (env := env) _

/-- The steps of a fetch that do not answer it. -/
theorem Written.quiet {o : StreamOpts} : ∀ (es' : List Stream.Ev) {es : List Stream.Ev} {L : Ledger}, Written env o es L →
    (∀ e ∈ es', (∃ g c gen lim poll, e = .fetch g c gen lim poll) ∨ ∃ id now, Worker id now e) →
    Silent env.crc ((newTopic env o).run env.crc es) es' → Written env o (es ++ es') L := by
  intro es'
  induction es' with
  | nil => intro es L h _ _; simpa using h
  | cons e es' ih =>
    intro es L h hw hs
    have h1 := h.step e
    have ho := hs _ (List.mem_cons_self ..)
    have hq : L.note env (e, (((newTopic env o).run env.crc es).step env.crc e).2) = L := by
      generalize (((newTopic env o).run env.crc es).step env.crc e).2 = out at ho
      rcases hw e (List.mem_cons_self ..) with ⟨g, c, gen, lim, poll, rfl⟩ | ⟨id, now, rfl | rfl | rfl | rfl⟩
      · rfl
      · cases out <;> first | rfl | cases ho
      · rfl
      · cases out <;> first | rfl | cases ho
      · rfl
    rw [hq] at h1
    have := ih h1 (fun x hx => hw x (List.mem_cons_of_mem _ hx)) ?_
    · simpa using this
    · rw [Stream.run_append]
      exact fun x hx => hs x (List.mem_cons_of_mem _ hx)

/-! ### A message in the books -/

theorem Written.entry {o : StreamOpts} {es : List Stream.Ev} {L : Ledger} (h : Written env o es L) {m : Msg}
    (hm : m ∈ Stream.published 1 es) : 1 ≤ m.seq ∧ L.log[m.seq - 1]? = some (m.timestamp, m.payload) := by
  obtain ⟨i, hi, he⟩ := List.getElem_of_mem hm
  have h1 : (Stream.published 1 es)[i]? = some m := by rw [List.getElem?_eq_getElem hi, he]
  have h2 := Stream.published_numbered es 1 i m h1
  have h3 : m.seq - 1 = i := by omega
  exact ⟨by omega, by rw [h3, h.log, List.getElem?_map, h1]; rfl⟩

end Verif.Rpc
