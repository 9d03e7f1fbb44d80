import Verif.Proofs.StoreRpc
import Verif.Props.Rpc
import Verif.Props.Store
import Verif.Props.Wire

/-!
# C94: the store as an application behind the network sees it

The English statement is in `/verif/properties.jsonl`.
-/

namespace Verif.Rpc

open Verif Verif.Wire Verif.Sdk

variable {E I : Type}

/-- **C94** (partial: not at the very instant at which a value expires, C09).  A `get` whose promise is settled with an answer:
at some moment between the call and the settlement, the answer is the value of the last write of the key that was carried
out before that moment, if its time to live had not elapsed, and null otherwise; whatever other clients, the network, the
server's tasks and the other brokers do meanwhile. -/
theorem C94_get_partial (pr : Printer) (srv : Server E I) {dflt : Nat} {st : E → Store.Map} {sw : I → Option (Str × Nat)}
    (hp : StorePart srv dflt st sw) (e0 : E) (h0 : st e0 = []) (es : List (Ev I))
    (ho : Ordinary pr srv ((World.init e0).run pr srv es).2) {a b : List (Obs I)} {p tag : Nat} {stat : UInt8} {d : Bytes} {key : Str}
    (hs : ((World.init e0).run pr srv es).2 = a ++ .settled p tag (.answer stat d) :: b)
    (hc : ∀ cmd s, Obs.called p tag cmd s ∈ a → cmd = .mapGet key) :
    ∃ a₁ a₂ a₃ l f now r, a = a₁ ++ .called p tag (.mapGet key) (some (l, f.id)) :: a₂ ++ .executed l f now r :: a₃ ∧
      let past := storeHistory sw (a₁ ++ .called p tag (.mapGet key) (some (l, f.id)) :: a₂)
      (Store.SweptBefore past now →
        (Store.lastWrite dflt key past = none → getResult stat d = some none) ∧
        (∀ v x, v.Writable → Store.lastWrite dflt key past = some (tsAny v, x) → now < x → getResult stat d = some (some v)) ∧
        (∀ v x, Store.lastWrite dflt key past = some (v, x) → x < now → getResult stat d = some none)) := by
  obtain ⟨a1, a2, a3, cmd, l, f, now, r, h1, h2, h3⟩ := C93_answered pr srv e0 es ho hs
  have hcmd := hc cmd (some (l, f.id)) (by rw [h1]; simp)
  subst hcmd
  refine ⟨a1, a2, a3, l, f, now, some r, h1, ?_⟩
  intro past hsw
  have h4 := hp.exec l now (.mapGet key) (state srv e0 (a1 ++ .called p tag (.mapGet key) (some (l, f.id)) :: a2)) rfl
  rw [store_state hp h0] at h4
  have h5 := Store.C09_latest_write_partial dflt past key hsw
  have h6 : some r = (storeExec dflt now (.mapGet key) (Store.run dflt [] past).1).2 := by
    rw [← h4]; exact h2
  have hnone : (Store.step dflt (Store.run dflt [] past).1 (.get key now)).2 = .value none → getResult stat d = some none := by
    intro hv
    simp only [Store.step] at hv
    injection hv with hv
    simp only [storeExec, hv] at h6
    injection h6 with h6
    subst h6
    simp only [shows] at h3
    injection h3 with h7 h8
    rw [← h7]; rfl
  refine ⟨fun hl => hnone (h5.1 hl), ?_, fun v x hl hx => hnone (h5.2.2 v x hl hx)⟩
  intro v x hw hl hx
  have hv := h5.2.1 _ x hl hx
  simp only [Store.step] at hv
  injection hv with hv
  simp only [storeExec, hv] at h6
  injection h6 with h6
  subst h6
  simp only [shows] at h3
  injection h3 with h7 h8
  rw [← h7, ← h8]
  simp [getResult, C06_values v hw]

theorem called_unique {p tag : Nat} {tr : List (Obs I)} (h : timesCalled p tag tr = 1) {cmd cmd' : Cmd} {s s' : Option (Nat × Nat)}
    (h1 : Obs.called p tag cmd s ∈ tr) (h2 : Obs.called p tag cmd' s' ∈ tr) : s = s' := by
  obtain ⟨x, y, rfl⟩ := List.append_of_mem h1
  rw [timesCalled_append, timesCalled_cons_called, if_pos ⟨rfl, rfl⟩] at h
  have h3 : timesCalled p tag x = 0 := by omega
  have h4 : timesCalled p tag y = 0 := by omega
  unfold timesCalled at h3 h4
  rw [List.countP_eq_zero] at h3 h4
  rcases List.mem_append.mp h2 with h2 | h2
  · have := h3 _ h2; simp at this
  · rcases List.mem_cons.mp h2 with h2 | h2
    · injection h2 with _ _ _ h2; exact h2.symm
    · have := h4 _ h2; simp at this

/-- **C94.** Reading what was written: a `get` made, by any client, after the answer to a `set` resolves to the value set, as
long as its time to live has not elapsed when the `get` is carried out, if all other writes of the key that are carried out
at all are carried out before that `set` is made. -/
theorem C94_fresh (pr : Printer) (srv : Server E I) {dflt : Nat} {st : E → Store.Map} {sw : I → Option (Str × Nat)}
    (hp : StorePart srv dflt st sw) (e0 : E) (h0 : st e0 = []) (es : List (Ev I)) {tr : List (Obs I)}
    (htr : tr = ((World.init e0).run pr srv es).2)
    (ho : Ordinary pr srv tr) {p tag q tag' : Nat} {key : Str} {opts : SetOpts} {v : Val} (hv : v.Writable)
    {s s' : List (Obs I)} {ds : Bytes} {stat' : UInt8} (hset : tr = s ++ .settled p tag (.answer stat' ds) :: s')
    (hcs : ∀ cmd sent, Obs.called p tag cmd sent ∈ tr → cmd = .mapSet key opts (tsAny v)) (hone : timesCalled p tag tr = 1)
    {g g' : List (Obs I)} {stat : UInt8} {d : Bytes} (hget : tr = g ++ .settled q tag' (.answer stat d) :: g')
    (hcg : ∀ cmd sent, Obs.called q tag' cmd sent ∈ tr → cmd = .mapGet key ∧ Obs.called q tag' cmd sent ∈ s')
    (honly : ∀ x y l f now r cmd, tr = x ++ .executed l f now r :: y → cmdAt l f.id x = some cmd → writesKey key cmd = true →
      Obs.called p tag cmd (some (l, f.id)) ∈ tr ∨ ∀ c sent, Obs.called p tag c sent ∉ x) :
    ∃ l f nowS r l' f' nowG r' x y, Obs.called p tag (.mapSet key opts (tsAny v)) (some (l, f.id)) ∈ tr ∧ Obs.executed l f nowS r ∈ x ∧
      tr = x ++ .executed l' f' nowG r' :: y ∧ Obs.called q tag' (.mapGet key) (some (l', f'.id)) ∈ x ∧
      (Store.SweptBefore (storeHistory sw x) nowG → nowG < Store.expiry dflt opts.ttl nowS → getResult stat d = some (some v)) := by
  subst htr
  obtain ⟨a1, a2, a3, cmd, l, f, nowS, r, h1, h2, _⟩ := C93_answered pr srv e0 es ho hset
  have hcmd := hcs cmd (some (l, f.id)) (by rw [hset, h1]; simp)
  subst hcmd
  obtain ⟨b1, b2, b3, l2, f2, nowG, r2, k1, k2⟩ := C94_get_partial pr srv hp e0 h0 es ho hget
    (fun cmd s hm => (hcg cmd s (by rw [hget]; exact List.mem_append.mpr (.inl hm))).1)
  have htr : ((World.init e0).run pr srv es).2 = (b1 ++ .called q tag' (.mapGet key) (some (l2, f2.id)) :: b2) ++
      .executed l2 f2 nowG r2 :: (b3 ++ .settled q tag' (.answer stat d) :: g') := by
    rw [hget, k1, List.append_assoc, List.cons_append]
  have hcalled : Obs.called q tag' (.mapGet key) (some (l2, f2.id)) ∈ s' := (hcg _ _ (by rw [htr]; simp)).2
  obtain ⟨_, _, _, _, _, _, _, _, _, hpre⟩ := C93_real_time pr srv e0 es ho hset (o := .called q tag' (.mapGet key) (some (l2, f2.id)))
    hcalled (l := l2) (f := f2) (cmd := .mapGet key) (by simp [Obs.wrote]) htr
  obtain ⟨z, hz⟩ := hpre
  generalize hx : b1 ++ Obs.called q tag' (.mapGet key) (some (l2, f2.id)) :: b2 = x at hz htr k2
  have hcx : Obs.called q tag' (.mapGet key) (some (l2, f2.id)) ∈ x := by rw [← hx]; simp
  generalize hpre' : a1 ++ Obs.called p tag (.mapSet key opts (tsAny v)) (some (l, f.id)) :: a2 = pre at h1 h2
  have hx' : x = pre ++ .executed l f nowS (some r) :: (a3 ++ .settled p tag (.answer stat' ds) :: z) := by
    rw [← hz, h1]; simp
  have hcp : Obs.called p tag (.mapSet key opts (tsAny v)) (some (l, f.id)) ∈ pre := by rw [← hpre']; simp
  refine ⟨l, f, nowS, some r, l2, f2, nowG, r2, x, _, ?_, ?_, htr, hcx, ?_⟩
  · rw [htr, hx']; simp [hcp]
  · rw [hx']; simp
  intro hsw hlt
  have k3 := k2 hsw
  refine k3.2.1 v _ hv ?_ hlt
  -- the history up to the get
  have htr2 : ((World.init e0).run pr srv es).2 = pre ++ .executed l f nowS (some r) ::
      ((a3 ++ .settled p tag (.answer stat' ds) :: z) ++ .executed l2 f2 nowG r2 :: (b3 ++ .settled q tag' (.answer stat d) :: g')) := by
    rw [htr, hx']; simp
  obtain ⟨hi, hf⟩ := holds_run pr srv e0 es ho
  obtain ⟨_, hat, _⟩ := exec_after hi hf ho (o := .called p tag (.mapSet key opts (tsAny v)) (some (l, f.id))) (cmd := .mapSet key opts (tsAny v))
    (by rw [htr2]; simp [hcp]) (by simp [Obs.wrote]) htr2
  have hrep : Store.representable (Store.expiry dflt opts.ttl nowS) = true := by
    have h4 := hp.exec l nowS (.mapSet key opts (tsAny v)) (state srv e0 pre) rfl
    have h5 := (Prod.mk.inj h4).2
    rw [← h2] at h5
    simp only [Store.set_eq] at h5
    by_cases hr : Store.representable (Store.expiry dflt opts.ttl nowS) = true
    · exact hr
    · simp [hr] at h5
  rw [hx', storeHistory, storeOps_append]
  simp only [List.nil_append, storeOps, storeOp, hat, Option.toList, List.singleton_append]
  refine lastWrite_set hrep ?_
  intro op hop
  obtain ⟨u, o, w, hu, hso⟩ := storeOp_mem hop
  have key' : ∀ l3 f3 now3 r3 cmd3, o = .executed l3 f3 now3 r3 →
      cmdAt l3 f3.id (pre ++ [Obs.executed l f nowS (some r)] ++ u) = some cmd3 → writesKey key cmd3 = true → False := by
    intro l3 f3 now3 r3 cmd3 ho3 hat3 hw3
    subst ho3
    have htr3 : ((World.init e0).run pr srv es).2 = (pre ++ [.executed l f nowS (some r)] ++ u) ++ .executed l3 f3 now3 r3 ::
        (w ++ .executed l2 f2 nowG r2 :: (b3 ++ .settled q tag' (.answer stat d) :: g')) := by
      rw [htr2, hu]; simp
    rcases honly _ _ l3 f3 now3 r3 cmd3 htr3 hat3 hw3 with hc | hc
    · have := called_unique hone hc (show Obs.called p tag (.mapSet key opts (tsAny v)) (some (l, f.id)) ∈ _ by rw [htr2]; simp [hcp])
      injection this with this
      injection this with e1 e2
      subst e1
      refine C93_once pr srv e0 es ho htr2 f3 now3 r3 ?_ e2
      rw [hu]; simp
    · exact hc _ _ (by simp only [List.append_assoc]; exact List.mem_append.mpr (.inl hcp))
  constructor
  · intro v' t n he
    subst he
    cases o with
    | executed l3 f3 now3 r3 =>
      simp only [storeOp] at hso
      cases hc3 : cmdAt l3 f3.id (pre ++ [Obs.executed l f nowS (some r)] ++ u) with
      | none => rw [hc3] at hso; cases hso
      | some cmd3 =>
        rw [hc3] at hso
        cases cmd3 with
        | mapSet k o' v3 =>
          injection hso with hso
          injection hso with e1
          exact key' _ _ _ _ _ rfl hc3 (by simp [writesKey, e1])
        | mapGet => injection hso with hso; cases hso
        | mapDel => injection hso with hso; cases hso
        | _ => cases hso
    | ticked x =>
      simp only [storeOp] at hso
      cases hsx : sw x with
      | none => rw [hsx] at hso; cases hso
      | some k => rw [hsx] at hso; injection hso with hso; cases hso
    | _ => cases hso
  · intro he
    subst he
    cases o with
    | executed l3 f3 now3 r3 =>
      simp only [storeOp] at hso
      cases hc3 : cmdAt l3 f3.id (pre ++ [Obs.executed l f nowS (some r)] ++ u) with
      | none => rw [hc3] at hso; cases hso
      | some cmd3 =>
        rw [hc3] at hso
        cases cmd3 with
        | mapSet => injection hso with hso; cases hso
        | mapGet => injection hso with hso; cases hso
        | mapDel k =>
          injection hso with hso
          injection hso with e1
          exact key' _ _ _ _ _ rfl hc3 (by simp [writesKey, e1])
        | _ => cases hso
    | ticked x =>
      simp only [storeOp] at hso
      cases hsx : sw x with
      | none => rw [hsx] at hso; cases hso
      | some k => rw [hsx] at hso; injection hso with hso; cases hso
    | _ => cases hso

/-! ## C95 -/

/-- **C95** (partial: only if the first was answered before the second is made).  Of two requests of a client, the one made
after the other was answered is carried out after it. -/
theorem C95_answered_first_partial (pr : Printer) (srv : Server E I) (e0 : E) (es : List (Ev I))
    (ho : Ordinary pr srv ((World.init e0).run pr srv es).2) {a b : List (Obs I)} {p tag tag' : Nat} {st : UInt8} {d : Bytes}
    (hs : ((World.init e0).run pr srv es).2 = a ++ .settled p tag (.answer st d) :: b) {l : Nat} {f : Frame} {cmd : Cmd}
    (hm : Obs.called p tag' cmd (some (l, f.id)) ∈ b) {now : Nat} {r : Option Response}
    (hx : Obs.executed l f now r ∈ ((World.init e0).run pr srv es).2) :
    ∃ x y z l' f' now' r' cmd', ((World.init e0).run pr srv es).2 = x ++ .executed l' f' now' r' :: y ++ .executed l f now r :: z ∧
      Obs.called p tag cmd' (some (l', f'.id)) ∈ x := by
  obtain ⟨u, w, hu⟩ := List.append_of_mem hx
  obtain ⟨a1, a2, cmd', l', f', now', r', h1, h2, h3⟩ := C93_real_time pr srv e0 es ho hs hm (f := f) (l := l) (cmd := cmd)
    (by simp [Obs.wrote]) hu
  obtain ⟨z, hz⟩ := h3
  refine ⟨a1, a2 ++ .settled p tag (.answer st d) :: z, w, l', f', now', some r', cmd', ?_, h2⟩
  rw [hu, ← hz, h1]; simp

/-! ## A concrete server -/

/-- A server with nothing but a store. -/
def exServer : Server Store.Map (Str × Nat) where
  max := 1000
  sd := exSerde
  exec := fun _ now => storeExec 60 now
  tick := fun k m => Store.sweep m k.1 k.2

example : StorePart exServer 60 (fun m => m) (fun x => some x) := by
  refine ⟨fun l now cmd e _ => rfl, ?_, fun x e => rfl⟩
  intro l now cmd e hs
  cases cmd <;> first | rfl | cases hs

/-- One client sets a key, in two chunks; another one reads it, over its own connection. -/
def exEvents : List (Ev (Str × Nat)) :=
  [.lib 0 .connect, .lib 0 .opened, .lib 1 .connect, .lib 1 .opened,
   .call 0 1 5000 0 (.mapSet [97] ⟨none⟩ (tsAny (.raw [7]))),
   .toServer 0 9, .toServer 0 100, .server 0 10 .spawn, .server 0 10 (.complete 0), .server 0 10 (.post 0), .server 0 11 .write, .toClient 0 5, .toClient 0 100,
   .tick ([97], 12),
   .call 1 2 5000 0 (.mapGet [97]), .toServer 1 100, .server 1 20 .spawn, .server 1 20 (.complete 0), .server 1 20 (.post 0), .server 1 20 .write, .toClient 1 100]

def exTrace : List (Obs (Str × Nat)) :=
  [.called 0 1 (.mapSet [97] ⟨none⟩ (tsAny (.raw [7]))) (some (0, 1)),
   .executed 0 ⟨1, 2, 1, [0, 0, 0, 1, 97, 0, 0, 0, 2, 123, 125, 0, 7]⟩ 10 (some .ok), .settled 0 1 (.answer 0 []),
   .ticked ([97], 12),
   .called 1 2 (.mapGet [97]) (some (1, 1)),
   .executed 1 ⟨1, 3, 1, [0, 0, 0, 1, 97]⟩ 20 (some (.data [0, 7])), .settled 1 2 (.answer 3 [0, 7])]

set_option maxRecDepth 100000 in
theorem exRun : ((World.init []).run exPrinter exServer exEvents).2 = exTrace := by decide

theorem countP_le {α : Type} (p : α → Bool) (l : List α) (n : Nat) (h : l.length < n) : l.countP p < n :=
  Nat.lt_of_le_of_lt List.countP_le_length h

theorem exOrdinary : Ordinary exPrinter exServer exTrace := by
  refine ⟨?_, ?_, ?_, fun p => countP_le _ _ _ (by decide)⟩
  · intro o ho cmd hc
    simp only [exTrace, List.mem_cons, List.not_mem_nil, or_false] at ho
    rcases ho with rfl | rfl | rfl | rfl | rfl | rfl | rfl <;> simp only [Obs.cmd?, reduceCtorEq] at hc <;> injection hc with hc <;> subst hc
    · refine ⟨show StrOk [97] by decide, ⟨by decide, by decide⟩, ?_⟩
      intro op body hb
      injection hb with hb; injection hb with h1 h2; subst h2; decide
    · refine ⟨show StrOk [97] by decide, trivial, ?_⟩
      intro op body hb
      injection hb with hb; injection hb with h1 h2; subst h2; decide
  · intro l f now r hm
    simp only [exTrace, List.mem_cons, List.not_mem_nil, or_false, reduceCtorEq, false_or, Obs.executed.injEq, Option.some.injEq] at hm
    rcases hm with ⟨rfl, rfl, rfl, rfl⟩ | ⟨rfl, rfl, rfl, rfl⟩ <;> decide
  · intro l p hm
    simp [exTrace] at hm

/-- The hypotheses of the theorems above are met, and the `get` resolves to what was set. -/
example : exTrace = exTrace.take 6 ++ .settled 1 2 (.answer 3 [0, 7]) :: [] ∧ getResult 3 [0, 7] = some (some (.raw [7])) ∧
    storeHistory (fun x => some x) exTrace = [.set [97] [0, 7] none 10, .sweep [97] 12, .get [97] 20] ∧
    timesCalled 0 1 exTrace = 1 ∧ timesSettled 0 1 exTrace = 1 := by decide

/-! ### Pipelined requests -/

/-- One client sets a key twice without waiting, and reads it when both are answered. -/
def exPipelined : List (Ev (Str × Nat)) :=
  [.lib 0 .connect, .lib 0 .opened, .call 0 1 5000 0 (.mapSet [97] ⟨none⟩ (tsAny (.raw [1]))), .call 0 2 5000 0 (.mapSet [97] ⟨none⟩ (tsAny (.raw [2]))),
   .toServer 0 100, .server 0 1 .spawn, .server 0 1 .spawn, .server 0 1 (.complete 1), .server 0 1 (.complete 0),
   .server 0 1 (.post 0), .server 0 1 (.post 0), .server 0 1 .write, .server 0 1 .write, .toClient 0 100,
   .call 0 3 5000 0 (.mapGet [97]), .toServer 0 100, .server 0 2 .spawn, .server 0 2 (.complete 0), .server 0 2 (.post 0), .server 0 2 .write, .toClient 0 100]

/-- **C95 is violated.**  Every request has its own task, and nothing orders the tasks of one connection: a client sets a key to
one value and then to another, both are answered `ok`, and a `get` made afterwards resolves to the first value. -/
theorem C95_violated : ∃ (es : List (Ev (Str × Nat))) (f₁ f₂ f₃ : Frame), f₁.id = 1 ∧ f₂.id = 2 ∧ f₃.id = 3 ∧
    ((World.init []).run exPrinter exServer es).2 =
      [.called 0 1 (.mapSet [97] ⟨none⟩ (tsAny (.raw [1]))) (some (0, 1)), .called 0 2 (.mapSet [97] ⟨none⟩ (tsAny (.raw [2]))) (some (0, 2)),
       .executed 0 f₂ 1 (some .ok), .executed 0 f₁ 1 (some .ok), .settled 0 2 (.answer 0 []), .settled 0 1 (.answer 0 []),
       .called 0 3 (.mapGet [97]) (some (0, 3)), .executed 0 f₃ 2 (some (.data (tsAny (.raw [1])))), .settled 0 3 (.answer 3 (tsAny (.raw [1])))] := by
  refine ⟨exPipelined, ⟨1, 2, 1, [0, 0, 0, 1, 97, 0, 0, 0, 2, 123, 125, 0, 1]⟩, ⟨1, 2, 2, [0, 0, 0, 1, 97, 0, 0, 0, 2, 123, 125, 0, 2]⟩,
    ⟨1, 3, 3, [0, 0, 0, 1, 97]⟩, rfl, rfl, rfl, ?_⟩
  set_option maxRecDepth 100000 in decide

end Verif.Rpc
