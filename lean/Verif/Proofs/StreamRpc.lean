import Verif.Spec.StreamRpc
import Verif.Proofs.StreamTrace
import Verif.Proofs.QueueRpc

/-!
# Lemmas about the streams behind the network: the steps of one fetch
-/

namespace Verif.Rpc

open Verif Verif.Wire Verif.Sdk
open Verif.Stream (Topic GErr Query)

/-- A step that works on the fetch `id`, or of the storage task. -/
def Worker (id now : Nat) (e : Stream.Ev) : Prop :=
  e = .attempt id now ∨ e = .giveUp id ∨ e = .finish id now ∨ e = .storage now

theorem tryFetch_fetches (t : Topic) (g c : Str) (gen limit now : Nat) : (t.tryFetch g c gen limit now).1.fetches = t.fetches := by
  unfold Topic.tryFetch
  split
  · rfl
  · dsimp only
    split
    · rfl
    · split <;> rfl

theorem finishCold_fetches (t : Topic) (op : Stream.FetchOp) (ms : List Stream.Msg) (now : Nat) :
    (t.finishCold op ms now).1.fetches = t.fetches := by
  unfold Topic.finishCold
  split
  · rfl
  · dsimp only
    split
    · rfl
    · split <;> rfl

theorem handle_fetches (crc : Bytes → Nat) (t : Topic) (c : Stream.SCmd) (now id : Nat) :
    (mget t.fetches id = none → mget (t.handle crc c now).fetches id = none) ∧
    ∀ op, mget t.fetches id = some op → ∃ op', mget (t.handle crc c now).fetches id = some op' ∧ op'.query = op.query := by
  cases c with
  | cold id' f lim =>
    simp only [Topic.handle, mget_mupd]
    by_cases h : id = id'
    · subst h
      simp only [if_true]
      refine ⟨fun hn => by rw [hn]; rfl, fun op ho => ?_⟩
      rw [ho]
      simp only [Option.map_some]
      split
      · exact ⟨_, rfl, rfl⟩
      · exact ⟨_, rfl, rfl⟩
    · simp only [if_neg h]
      exact ⟨fun h => h, fun op ho => ⟨op, ho, rfl⟩⟩
  | _ => exact ⟨fun h => h, fun op ho => ⟨op, ho, rfl⟩⟩

theorem worker_gone {crc : Bytes → Nat} {t : Topic} {id now : Nat} {e : Stream.Ev} (hw : Worker id now e) (hn : mget t.fetches id = none) :
    fetchResult (t.step crc e).2 = none ∧ mget (t.step crc e).1.fetches id = none := by
  rcases hw with rfl | rfl | rfl | rfl
  · simp only [Topic.step, Topic.attempt, hn]; exact ⟨rfl, trivial⟩
  · simp only [Topic.step, hn]; exact ⟨rfl, trivial⟩
  · simp only [Topic.step, hn]; exact ⟨rfl, trivial⟩
  · simp only [Topic.step]
    cases hc : t.chan with
    | nil => exact ⟨rfl, hn⟩
    | cons c cs => exact ⟨rfl, (handle_fetches crc _ c now id).1 hn⟩

theorem worker_step {crc : Bytes → Nat} {t : Topic} {id now : Nat} {e : Stream.Ev} (hw : Worker id now e) {op : Stream.FetchOp}
    (ho : mget t.fetches id = some op) :
    (∃ r, (t.step crc e).2 = .fetched op.query r ∧ mget (t.step crc e).1.fetches id = none ∧
      ((∃ i, e = .attempt i now) ∨ (∃ i, e = .finish i now) ∨ r = .ok [])) ∨
    (fetchResult (t.step crc e).2 = none ∧ ∃ op', mget (t.step crc e).1.fetches id = some op' ∧ op'.query = op.query) := by
  rcases hw with rfl | rfl | rfl | rfl
  · simp only [Topic.step, Topic.attempt, ho]
    split
    · exact .inr ⟨rfl, op, ho, rfl⟩
    · split
      · refine .inl ⟨_, rfl, ?_, .inl ⟨_, rfl⟩⟩
        simp [Topic.endFetch, tryFetch_fetches, mget_mdel_same]
      · refine .inl ⟨_, rfl, ?_, .inl ⟨_, rfl⟩⟩
        simp [Topic.endFetch, tryFetch_fetches, mget_mdel_same]
      · exact .inr ⟨rfl, _, mget_mset_same .., rfl⟩
      · split
        · exact .inr ⟨rfl, _, mget_mset_same .., rfl⟩
        · refine .inl ⟨_, rfl, ?_, .inl ⟨_, rfl⟩⟩
          simp [Topic.endFetch, tryFetch_fetches, mget_mdel_same]
  · simp only [Topic.step, ho]
    split
    · exact .inl ⟨_, rfl, mget_mdel_same .., .inr (.inr rfl)⟩
    · exact .inr ⟨rfl, op, ho, rfl⟩
  · simp only [Topic.step, ho]
    split
    · refine .inl ⟨_, rfl, ?_, .inr (.inl ⟨_, rfl⟩)⟩
      simp [Topic.endFetch, finishCold_fetches, mget_mdel_same]
    · exact .inr ⟨rfl, op, ho, rfl⟩
  · right
    simp only [Topic.step]
    cases hc : t.chan with
    | nil => exact ⟨rfl, op, ho, rfl⟩
    | cons c cs => exact ⟨rfl, (handle_fetches crc _ c now id).2 op ho⟩

theorem Outs_append (crc : Bytes → Nat) (a : List Stream.Ev) : ∀ (t : Topic) (b : List Stream.Ev),
    Outs crc t (a ++ b) = Outs crc t a ++ Outs crc (t.run crc a) b := by
  induction a with
  | nil => intro t b; rfl
  | cons e a ih => intro t b; simp only [List.cons_append, Outs, ih, Topic.run]

/-- No step of the history answers a fetch. -/
def Silent (crc : Bytes → Nat) (t : Topic) (es : List Stream.Ev) : Prop := ∀ o ∈ Outs crc t es, fetchResult o = none

theorem Silent.nil (crc : Bytes → Nat) (t : Topic) : Silent crc t [] := fun _ h => nomatch h

theorem Silent.cons {crc : Bytes → Nat} {t : Topic} {e : Stream.Ev} {es : List Stream.Ev} (h : fetchResult (t.step crc e).2 = none)
    (h2 : Silent crc (t.step crc e).1 es) : Silent crc t (e :: es) := by
  intro o ho
  rcases List.mem_cons.1 ho with rfl | ho
  · exact h
  · exact h2 o ho

theorem workers_gone {crc : Bytes → Nat} {id now : Nat} : ∀ (es : List Stream.Ev) (t : Topic), (∀ e ∈ es, Worker id now e) →
    mget t.fetches id = none → Silent crc t es := by
  intro es
  induction es with
  | nil => intro t _ _; exact Silent.nil _ _
  | cons e es ih =>
    intro t hw hn
    obtain ⟨h1, h2⟩ := worker_gone (crc := crc) (hw e (List.mem_cons_self ..)) hn
    exact Silent.cons h1 (ih _ (fun e he => hw e (List.mem_cons_of_mem _ he)) h2)

/-- The steps of a command have one that answers a fetch with query `q`, and no other. -/
structure Answers (crc : Bytes → Nat) (t : Topic) (q : Query) (now : Nat) (es pre : List Stream.Ev) (e : Stream.Ev) (post : List Stream.Ev)
    (r : Except GErr (List Stream.Msg)) : Prop where
  split : es = pre ++ e :: post
  out : ((t.run crc pre).step crc e).2 = .fetched q r
  before : Silent crc t pre
  after : Silent crc ((t.run crc pre).step crc e).1 post
  clock : (∃ i, e = .attempt i now) ∨ (∃ i, e = .finish i now) ∨ ∀ m ms, r ≠ .ok (m :: ms)

theorem workers {crc : Bytes → Nat} {id now : Nat} : ∀ (es : List Stream.Ev) (t : Topic) (op : Stream.FetchOp), (∀ e ∈ es, Worker id now e) →
    mget t.fetches id = some op → (∃ pre e post r, Answers crc t op.query now es pre e post r) ∨ Silent crc t es := by
  intro es
  induction es with
  | nil => intro t op _ _; exact .inr (Silent.nil _ _)
  | cons e es ih =>
    intro t op hw ho
    have hw' := fun e he => hw e (List.mem_cons_of_mem _ he)
    rcases worker_step (crc := crc) (hw e (List.mem_cons_self ..)) ho with ⟨r, h1, h2, h3⟩ | ⟨h1, op', h2, h3⟩
    · refine .inl ⟨[], e, es, r, rfl, h1, Silent.nil _ _, workers_gone es _ hw' h2, ?_⟩
      rcases h3 with h | h | h
      · exact .inl h
      · exact .inr (.inl h)
      · refine .inr (.inr ?_); intro m ms hr; rw [h] at hr; cases hr
    · rcases ih _ op' hw' h2 with ⟨pre, x, post, r, ha⟩ | hs
      · refine .inl ⟨e :: pre, x, post, r, by rw [ha.split]; rfl, ?_, Silent.cons h1 ha.before, ha.after, ha.clock⟩
        rw [← h3]; exact ha.out
      · exact .inr (Silent.cons h1 hs)

theorem silent_find {crc : Bytes → Nat} {t : Topic} {es : List Stream.Ev} (h : Silent crc t es) : (Outs crc t es).findSome? fetchResult = none := by
  rw [List.findSome?_eq_none_iff]; exact h

theorem Answers.find {crc : Bytes → Nat} {t : Topic} {q : Query} {now : Nat} {es pre post : List Stream.Ev} {e : Stream.Ev}
    {r : Except GErr (List Stream.Msg)} (h : Answers crc t q now es pre e post r) : (Outs crc t es).findSome? fetchResult = some r := by
  rw [h.split, Outs_append, List.findSome?_append, silent_find h.before]
  simp only [Outs, Option.none_or, List.findSome?_cons, h.out, fetchResult]

theorem fetchEnd_workers (crc : Bytes → Nat) (t : Topic) (id now : Nat) (again : Bool) : ∀ e ∈ fetchEnd crc t id now again, Worker id now e := by
  intro e he
  simp only [fetchEnd, List.mem_append, List.mem_singleton] at he
  generalize htr : (if (again || (mget t.fetches id).any (fun op => decide (op.phase = .ready))) = true then [Stream.Ev.attempt id now] else []) = tries at he
  rcases he with ((he | he) | he) | he
  · left
    rw [← htr] at he
    split at he
    · rw [List.mem_singleton] at he; exact he
    · cases he
  · exact .inr (.inl he)
  · split at he
    · exact .inr (.inr (.inr (List.eq_of_mem_replicate he)))
    · cases he
  · exact .inr (.inr (.inl he))

/-- The steps of a fetch. -/
theorem fetch_steps (env : Env) (k now : Nat) (q : Query) (poll : Bool) (t : Topic) :
    (∃ pre e post r, Answers env.crc t q now (fetchSteps env k now q poll t) pre e post r) ∨ Silent env.crc t (fetchSteps env k now q poll t) := by
  unfold fetchSteps
  split
  · next id again hp =>
    simp only [picked, Option.bind_eq_some_iff] at hp
    obtain ⟨x, _, op, ho, hq⟩ := hp
    split at hq
    · next hq' =>
      injection hq with hq; subst hq
      rw [← hq']
      exact workers _ t op (fetchEnd_workers _ _ _ _ _) ho
    · cases hq
  · cases hg : mget t.groups q.group with
    | none =>
      have h1 : (t.step env.crc (.fetch q.group q.consumer q.gen q.limit poll)) =
          ({ t with nextOp := t.nextOp + 1 }, .fetched q (.error .groupNotFound)) := by simp [Topic.step, hg]
      simp only [mhas, hg, Option.isSome_none, Bool.false_eq_true, if_false]
      exact .inl ⟨[], _, [], _, rfl, by simp only [Topic.run]; rw [h1], Silent.nil _ _, Silent.nil _ _, .inr (.inr (by intro m ms h; cases h))⟩
    | some g =>
      simp only [mhas, hg, Option.isSome_some, if_true]
      generalize hes : fetchEnd env.crc (t.step env.crc (.fetch q.group q.consumer q.gen q.limit poll)).1 t.nextOp now true = es
      have hw : ∀ e ∈ es, Worker t.nextOp now e := by rw [← hes]; exact fetchEnd_workers _ _ _ _ _
      clear hes
      have h1 : (t.step env.crc (.fetch q.group q.consumer q.gen q.limit poll)) =
          ({ t with nextOp := t.nextOp + 1
                    fetches := mset t.fetches t.nextOp
                      { group := q.group, consumer := q.consumer, gen := q.gen, limit := q.limit, poll, token := g.epoch, phase := .ready } }, .none) := by
        simp [Topic.step, hg]
      rcases workers (crc := env.crc) es (t.step env.crc (.fetch q.group q.consumer q.gen q.limit poll)).1 _ hw (by rw [h1]; exact mget_mset_same ..) with ⟨pre, e, post, r, ha⟩ | hs
      · refine .inl ⟨_ :: pre, e, post, r, by rw [ha.split]; rfl, ha.out, Silent.cons (by rw [h1]; rfl) ha.before, ha.after, ha.clock⟩
      · exact .inr (Silent.cons (by rw [h1]; rfl) hs)

end Verif.Rpc
