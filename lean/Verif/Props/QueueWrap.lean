import Verif.Model.QueueWrap
import Verif.Props.Queue

/-!
# Property C97: visibility timeouts of any size

`step64`, `run64`, `Sys.run64`: the queue broker with the addition `now + visibility timeout` of a release build, which wraps
around at 2^64.
-/

namespace Verif.Queue

open Spec.Queue (Item Dead Q Core Req Ans Held)

/-- The clock reading of a request that hands out messages. -/
def Op.handsOutAt : Op → Option Nat
  | .pop now => some now
  | .consume _ now => some now
  | _ => none

/-- The deadline of what the request hands out can be represented. -/
def Op.InTime (vt : Nat) (op : Op) : Prop := ∀ now, op.handsOutAt = some now → now + vt < 2 ^ 64

def Event.InTime (vt : Nat) : Event → Prop
  | .op o => o.InTime vt
  | _ => True

/-! ## Without overflow, the two brokers are the same -/

theorem popSingle_sum (s : QState) {now vt now' vt' : Nat} (h : now + vt = now' + vt') : s.popSingle now vt = s.popSingle now' vt' := by
  simp only [QState.popSingle, h]

theorem takeBatch_sum {now vt now' vt' : Nat} (h : now + vt = now' + vt') (max : Nat) :
    ∀ s : QState, s.takeBatch now vt max = s.takeBatch now' vt' max := by
  induction max with
  | zero => intro s; rfl
  | succ n ih => intro s; simp only [QState.takeBatch, popSingle_sum s h, ih]

theorem wrapAdd_eq {now vt : Nat} (h : now + vt < 2 ^ 64) : wrapAdd now vt = now + vt := Nat.mod_eq_of_lt h

theorem step64_eq (q : QInner) {op : Op} (h : op.InTime q.cfg.visibilityTimeout) : step64 q op = step q op := by
  cases op with
  | pop now =>
    have hw := wrapAdd_eq (h now rfl)
    simp only [step64, step, QState.popSingle64, popSingle_sum q.state (show 0 + wrapAdd now q.cfg.visibilityTimeout = now + q.cfg.visibilityTimeout by rw [hw, Nat.zero_add])]
    rfl
  | consume max now =>
    have hw := wrapAdd_eq (h now rfl)
    simp only [step64, step, QState.takeBatch64,
      takeBatch_sum (show 0 + wrapAdd now q.cfg.visibilityTimeout = now + q.cfg.visibilityTimeout by rw [hw, Nat.zero_add]) max q.state]
  | _ => rfl

theorem run64_eq : ∀ (ops : List Op) (q : QInner), (∀ op ∈ ops, op.InTime q.cfg.visibilityTimeout) → run64 q ops = run q ops := by
  intro ops
  induction ops with
  | nil => intro q _; rfl
  | cons op t ih =>
    intro q h
    simp only [run64, run, step64_eq q (h op (List.mem_cons_self ..))]
    rw [ih _ (fun o ho => by rw [step_cfg]; exact h o (List.mem_cons_of_mem _ ho))]

theorem sys_step_cfg (s : Sys) (e : Event) : (s.step e).1.q.cfg = s.q.cfg := by
  cases e with
  | op o => simp only [Sys.step, step_cfg]
  | commit n => rfl
  | restart now => rfl

/-- C97: as long as no clock reading plus the visibility timeout exceeds 64 bits, the release build answers exactly as
the broker of C22–C33 does: every request, every commit to disk, every restart. -/
theorem C97_same : ∀ (es : List Event) (s : Sys), (∀ e ∈ es, e.InTime s.q.cfg.visibilityTimeout) → s.run64 es = s.run es := by
  intro es
  induction es with
  | nil => intro s _; rfl
  | cons e t ih =>
    intro s h
    have he : s.step64 e = s.step e := by
      cases e with
      | op o => simp only [Sys.step64, Sys.step, step64_eq s.q (h _ (List.mem_cons_self ..))]
      | _ => rfl
    simp only [Sys.run64, Sys.run, he]
    rw [ih _ (fun o ho => by rw [sys_step_cfg]; exact h o (List.mem_cons_of_mem _ ho))]

/-- C97 (partial: the deadlines must fit 64 bits): after any history of requests, commits and restarts, a message handed
out at `now` is not handed out again by any later request, unless a NACK of it or a timeout check at or after
`now + visibility timeout` comes first. -/
theorem C97_exclusive_partial {cfg : Config} {es : List Event} (hv : ValidHist es)
    (hes : ∀ e ∈ es, e.InTime cfg.visibilityTimeout)
    {op : Op} {now : Nat} (hop : op = .pop now ∨ ∃ n, op = .consume n now) (hok : op.ok) (hin : op.InTime cfg.visibilityTimeout)
    {id : Id} (hid : id ∈ (step64 ((Sys.new cfg).run64 es).1.q op).2.1.delivered)
    {ops : List Op} (hf : Fresh (eventIds es) ops) (hops : ∀ o ∈ ops, o.InTime cfg.visibilityTimeout)
    (hnack : ∀ reason t, Op.nack id reason t ∉ ops)
    (htick : ∀ t t', Op.tick t t' ∈ ops → t' < now + cfg.visibilityTimeout) :
    ∀ out ∈ (run64 (step64 ((Sys.new cfg).run64 es).1.q op).1 ops).2, id ∉ out.delivered := by
  have e1 : (Sys.new cfg).run64 es = (Sys.new cfg).run es := C97_same es (Sys.new cfg) hes
  rw [e1] at hid ⊢
  have hr : Reachable cfg (eventIds es) ((Sys.new cfg).run es).1.q := ⟨es, hv, rfl, rfl⟩
  have hc : ((Sys.new cfg).run es).1.q.cfg = cfg := by
    obtain ⟨hc, _⟩ := hr.inv
    exact hc
  have e2 : step64 ((Sys.new cfg).run es).1.q op = step ((Sys.new cfg).run es).1.q op := step64_eq _ (by rw [hc]; exact hin)
  rw [e2] at hid ⊢
  rw [run64_eq ops _ (fun o ho => by rw [step_cfg, hc]; exact hops o ho)]
  exact C25_exclusive hr hop hok hid hf hnack htick

/-- The deadline of everything that is handed out lies before the clock, once the sum has wrapped around. -/
theorem C97_wrapped {now vt : Nat} (hvt : vt < 2 ^ 64) (hnow : now < 2 ^ 64) (h : 2 ^ 64 ≤ now + vt) {s : QState} {m : Msg} {b : Bool} {s' : QState}
    (hp : s.popSingle64 now vt = (some m, b, s')) : m.visibleAt < now := by
  have hw : wrapAdd now vt < now := by
    unfold wrapAdd
    rw [Nat.mod_eq_sub_mod h, Nat.mod_eq_of_lt (by omega)]
    omega
  unfold QState.popSingle64 QState.popSingle at hp
  split at hp
  · simp at hp
  · dsimp only at hp
    split at hp
    · simp at hp
    · simp only [Prod.mk.injEq, Option.some.injEq] at hp
      rw [← hp.1]
      dsimp only
      omega

/-- The largest timeout a client of the TypeScript SDK can ask for below 2^64 (18446744073709549568, the `number` before 2^64). -/
def hugeCfg : Config := { visibilityTimeout := 18446744073709549568, maxRetries := 2 }

/-- C97 does not hold without the restriction: with a visibility timeout of half a billion years, a message handed out
in November 2026 is handed out to a second consumer in the same millisecond, and is a dead letter after the second check, though no one gave it back. -/
theorem C97_violated :
    ((Sys.new hugeCfg).run64 [.op (.push 1 [10] 0 1794837000000), .op (.pop 1794837000000), .op (.tick 1794837000000 1794837000000),
      .op (.pop 1794837000000), .op (.tick 1794837000000 1794837000000)]).2.map (fun o => (o.map Out.delivered).getD []) = [[], [1], [], [1], []] ∧
    (deadLetters ((Sys.new hugeCfg).run64 [.op (.push 1 [10] 0 1794837000000), .op (.pop 1794837000000),
      .op (.tick 1794837000000 1794837000000), .op (.pop 1794837000000), .op (.tick 1794837000000 1794837000000)]).1.q).map (·.id) = [1] := by
  decide

/-- The same history with the timeout the client meant. -/
example : ((Sys.new hugeCfg).run [.op (.push 1 [10] 0 1794837000000), .op (.pop 1794837000000), .op (.tick 1794837000000 1794837000000),
      .op (.pop 1794837000000)]).2.map (fun o => (o.map Out.delivered).getD []) = [[], [1], [], []] := by decide

/-- The hypotheses of `C97_exclusive_partial` can be met. -/
example : (∀ e ∈ exEvents, e.InTime exCfg.visibilityTimeout) ∧ (Op.consume 2 20).InTime exCfg.visibilityTimeout ∧
    3 ∈ (step64 ((Sys.new exCfg).run64 exEvents).1.q (.consume 2 20)).2.1.delivered := by
  refine ⟨?_, ?_, by decide⟩
  · intro e he
    simp only [exEvents, List.mem_cons, List.not_mem_nil, or_false] at he
    rcases he with rfl | rfl | rfl | rfl | rfl | rfl <;> simp [Event.InTime, Op.InTime, Op.handsOutAt, exCfg]
  · simp [Op.InTime, Op.handsOutAt, exCfg]

/-- The hypotheses of `C97_wrapped` can be met. -/
example : ∃ m b s', (QState.new.push (Msg.new 1 [10] 0 5)).popSingle64 1794837000000 hugeCfg.visibilityTimeout = (some m, b, s') := by
  exact ⟨_, _, _, rfl⟩

end Verif.Queue
