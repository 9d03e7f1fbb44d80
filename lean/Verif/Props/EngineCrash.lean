import Verif.Spec.EngineCrash
import Verif.Props.Engine
import Verif.Props.QueueCrashRpc
import Verif.Props.StreamCrashRpc

/-!
# C121: the whole server across crashes
-/

namespace Verif.Rpc

open Verif Verif.Wire Verif.Sdk

variable {E I : Type}

def fateSweep : Fate → Option (Str × Nat)
  | .task x => engineSweep x
  | _ => none

def fateDown : Fate → Bool
  | .crash .. => true
  | _ => false

def fateQueue : Fate → Option Queue.MEvent
  | .task x => engineQueue x
  | .crash now _ _ => some (.restart now)

def fateStream : Fate → Option Job
  | .task x => (engineStream x).map (fun y => .on y.1 y.2)
  | .crash .. => some .crash

/-- **C121.** The server with all four brokers, which may crash as a whole at any moment and start again, meets the assumptions of C112 and C117 at
once, and its store is as `C121_get_partial` asks: with each crash all the brokers lose their memory at the same moment. -/
theorem C121_hosts (c : Conf) (lossy : Bytes → Str) (max : Nat) (sd : Serde) (pe un : Str) :
    StoreHost (mortalServer c lossy max sd pe un) c.storeTtl Engine.store fateSweep fateDown ∧
    QueueHost (mortalServer c lossy max sd pe un) c.queue c.batch c.supply Engine.queues fateQueue ∧
    StreamHost (mortalServer c lossy max sd pe un) c.stream lossy Engine.streams fateStream := by
  obtain ⟨h1, h2, h3, -⟩ := C108_parts c max sd pe un
  refine ⟨⟨h1.exec, h1.other, ?_, ?_⟩, ⟨h2.exec, h2.other, ?_, ?_⟩, ⟨h3.exec, h3.other, ?_, ?_⟩⟩
  · intro x e hx
    cases x with
    | task x => exact h1.tick x e
    | crash => cases hx
  · intro x e hx
    cases x with
    | task => cases hx
    | crash => rfl
  · intro x e
    cases x with
    | task x => exact h2.tick x e
    | crash => rfl
  · intro x ev hx
    cases x with
    | task x => exact h2.host.tasks x ev hx
    | crash now t u => injection hx with hx; exact .inr (.inr ⟨now, hx.symm⟩)
  · intro x e
    cases x with
    | task x =>
      refine (h3.tick x e).trans ?_
      simp only [fateStream]
      cases engineStream x <;> rfl
    | crash => rfl
  · intro x n ev hx
    cases x with
    | task x =>
      simp only [fateStream] at hx
      cases hs : engineStream x with
      | none => rw [hs] at hx; cases hx
      | some y =>
        rw [hs] at hx
        simp only [Option.map_some, Option.some.injEq, Job.on.injEq] at hx
        obtain ⟨rfl, rfl⟩ := hx
        exact h3.tasks x _ _ hs
    | crash => cases hx

/-! ### The store -/

theorem sinceCrash_exists (down : I → Bool) (tr : List (Obs I)) : ∃ x y, tr = x ++ y ∧ SinceCrash down x y := by
  induction tr using Sdk.snoc_ind with
  | h0 => exact ⟨[], [], rfl, .inl rfl, fun _ h => nomatch h⟩
  | h1 tr o ih =>
    obtain ⟨x, y, h1, h2, h3⟩ := ih
    have skip : (∀ i, o = .ticked i → down i = false) → ∃ x y, tr ++ [o] = x ++ y ∧ SinceCrash down x y := by
      intro h
      refine ⟨x, y ++ [o], by rw [h1]; simp, h2, fun i hi => ?_⟩
      rcases List.mem_append.mp hi with hi | hi
      · exact h3 i hi
      · exact h i (List.mem_singleton.mp hi).symm
    cases o with
    | ticked i =>
      cases hd : down i with
      | true => exact ⟨tr ++ [.ticked i], [], by simp, .inr ⟨tr, i, rfl, hd⟩, fun _ h => nomatch h⟩
      | false => exact skip (fun j hj => by injection hj with hj; rw [← hj]; exact hd)
    | _ => exact skip (fun j hj => nomatch hj)

/-- The store after a trace is the store after what came since the last crash. -/
theorem storeSince {srv : Server E I} {dflt : Nat} {st : E → Store.Map} {sw : I → Option (Str × Nat)} {down : I → Bool}
    (hp : StoreHost srv dflt st sw down) {e0 : E} (h0 : st e0 = []) {x y : List (Obs I)} (hc : SinceCrash down x y) :
    st (state srv e0 (x ++ y)) = (Store.run dflt [] (storeOps sw x y)).1 := by
  obtain ⟨hl, hn⟩ := hc
  induction y using Sdk.snoc_ind with
  | h0 =>
    rw [List.append_nil]
    rcases hl with rfl | ⟨x', i, rfl, hi⟩
    · exact h0
    · rw [state_snoc]; exact hp.crash i _ hi
  | h1 y o ih =>
    have ih := ih (fun i hi => hn i (by simp [hi]))
    rw [← List.append_assoc, state_snoc, storeOps_append, store_run_append, ← ih]
    simp only [storeOps, List.append_nil]
    generalize state srv e0 (x ++ y) = e
    cases o with
    | executed l f now r =>
      simp only [effect, storeOp]
      cases hc : cmdAt l f.id (x ++ y) with
      | none => rfl
      | some cmd =>
        by_cases hs : isStore cmd = true
        · have h2 := hp.exec l now cmd e hs
          cases cmd with
          | mapSet key opts v =>
            simp only [storeExec] at h2
            simp only [Option.toList, Store.run, Store.step]
            cases hx : Store.set dflt (st e) key v opts.ttl now with
            | none => rw [hx] at h2; exact (Prod.mk.inj h2).1
            | some m => rw [hx] at h2; exact (Prod.mk.inj h2).1
          | mapGet key =>
            simp only [storeExec] at h2
            simp only [Option.toList, Store.run, Store.step]
            cases hx : Store.get (st e) key now with
            | none => rw [hx] at h2; exact (Prod.mk.inj h2).1
            | some m => rw [hx] at h2; exact (Prod.mk.inj h2).1
          | mapDel key => exact (Prod.mk.inj h2).1
          | _ => cases hs
        · have hs' : isStore cmd = false := by simpa using hs
          have h2 := hp.other l now cmd e hs'
          cases cmd with
          | mapSet => cases hs'
          | mapGet => cases hs'
          | mapDel => cases hs'
          | _ => exact h2
    | ticked i =>
      have hi := hn i (by simp)
      simp only [effect, storeOp, hp.tick i _ hi]
      cases sw i with
      | none => rfl
      | some k => rfl
    | called => rfl
    | fired => rfl
    | pushed => rfl
    | settled => rfl

/-- **C121** (partial: not at the very instant at which a value expires, C09).  A `get` whose promise is settled with an answer: at some moment between
the call and the settlement, the answer is the value of the last write of the key that was carried out before that moment and after the
last crash (`x`: the trace up to the last crash, `y`: what came since), if its time to live had not elapsed, and null otherwise.  So no crash
brings back an old value, and none leaves a deleted key in place; and values do not outlive the process. -/
theorem C121_get_partial (pr : Printer) (srv : Server E I) {dflt : Nat} {st : E → Store.Map} {sw : I → Option (Str × Nat)} {down : I → Bool}
    (hp : StoreHost srv dflt st sw down) (e0 : E) (h0 : st e0 = []) (es : List (Ev I))
    (ho : Ordinary pr srv ((World.init e0).run pr srv es).2) {a b : List (Obs I)} {p tag : Nat} {stat : UInt8} {d : Bytes} {key : Str}
    (hs : ((World.init e0).run pr srv es).2 = a ++ .settled p tag (.answer stat d) :: b)
    (hc : ∀ cmd s, Obs.called p tag cmd s ∈ a → cmd = .mapGet key) :
    ∃ a₁ a₂ a₃ l f now r x y, a = a₁ ++ .called p tag (.mapGet key) (some (l, f.id)) :: a₂ ++ .executed l f now r :: a₃ ∧
      a₁ ++ .called p tag (.mapGet key) (some (l, f.id)) :: a₂ = x ++ y ∧ SinceCrash down x y ∧
      (Store.SweptBefore (storeOps sw x y) now →
        (Store.lastWrite dflt key (storeOps sw x y) = none → getResult stat d = some none) ∧
        (∀ v z, v.Writable → Store.lastWrite dflt key (storeOps sw x y) = some (tsAny v, z) → now < z → getResult stat d = some (some v)) ∧
        (∀ v z, Store.lastWrite dflt key (storeOps sw x y) = some (v, z) → z < now → getResult stat d = some none)) := by
  obtain ⟨a1, a2, a3, cmd, l, f, now, r, h1, h2, h3⟩ := C93_answered pr srv e0 es ho hs
  have hcmd := hc cmd (some (l, f.id)) (by rw [h1]; simp)
  subst hcmd
  obtain ⟨x, y, hxy, hsc⟩ := sinceCrash_exists down (a1 ++ .called p tag (.mapGet key) (some (l, f.id)) :: a2)
  refine ⟨a1, a2, a3, l, f, now, some r, x, y, h1, hxy, hsc, ?_⟩
  intro hsw
  have h4 := hp.exec l now (.mapGet key) (state srv e0 (a1 ++ .called p tag (.mapGet key) (some (l, f.id)) :: a2)) rfl
  have h2' : some r = (srv.exec l now (.mapGet key) (state srv e0 (a1 ++ .called p tag (.mapGet key) (some (l, f.id)) :: a2))).2 := h2
  rw [hxy] at h4 h2'
  rw [storeSince hp h0 hsc] at h4
  have h5 := Store.C09_latest_write_partial dflt (storeOps sw x y) key hsw
  have h6 : some r = (storeExec dflt now (.mapGet key) (Store.run dflt [] (storeOps sw x y)).1).2 := by
    rw [← h4]; exact h2'
  have hnone : (Store.step dflt (Store.run dflt [] (storeOps sw x y)).1 (.get key now)).2 = .value none → getResult stat d = some none := by
    intro hv
    simp only [Store.step] at hv
    injection hv with hv
    simp only [storeExec, hv] at h6
    injection h6 with h6
    subst h6
    simp only [shows] at h3
    injection h3 with h7 h8
    rw [← h7]; rfl
  refine ⟨fun hl => hnone (h5.1 hl), ?_, fun v z hl hz => hnone (h5.2.2 v z hl hz)⟩
  intro v z hw hl hz
  have hv := h5.2.1 _ z hl hz
  simp only [Store.step] at hv
  injection hv with hv
  simp only [storeExec, hv] at h6
  injection h6 with h6
  subst h6
  simp only [shows] at h3
  injection h3 with h7 h8
  rw [← h7, ← h8]
  simp [getResult, C06_values v hw]

/-! ### Histories -/

/-- **C121.** The histories of the server, with all answers and all crashes, are exactly the interleavings of histories of the four brokers on
their own in which all of them crash at the same moments: what one broker finds on the disk is never touched by another one. -/
theorem C121_interleaving (c : Conf) (lossy : Bytes → Str) (A : List (Act Fate)) (e : Engine) :
    History (Engine.exec c) (Engine.fate c lossy) e A ↔
      History (storeAlone c) storeFate e.store (A.filter (Act.hits .store)) ∧
      History (queueAlone c) (queueFate c) e.queues (A.filter (Act.hits .queue)) ∧
      History (streamAlone c) (streamFate c lossy) e.streams (A.filter (Act.hits .stream)) ∧
      History (hubAlone c) (hubFate c) e.hub (A.filter (Act.hits .pubsub)) := by
  induction A generalizing e with
  | nil => simp [History]
  | cons a A ih =>
    cases a with
    | did l cmd now r =>
      cases cmd <;>
        simp only [History, ih, Engine.exec, Act.hits, List.filter_cons, Cmd.broker, Cmd.opcode, storeAlone, queueAlone, streamAlone, hubAlone,
          Nat.reduceLT, ↓reduceIte, reduceCtorEq, decide_true, decide_false, Bool.false_eq_true] <;>
        (constructor <;> intro h <;> simp only [h, and_self])
    | ticked x =>
      cases x with
      | crash now t u => simp [History, ih, Engine.fate, Engine.crash, Act.hits, List.filter_cons, storeFate, queueFate, streamFate, hubFate]
      | task x =>
        cases x with
        | hub op =>
          cases op <;> simp [History, ih, Engine.fate, Engine.tick, Act.hits, Task.broker, hubFate, hubTask, ofHub]
        | stream n ev =>
          cases hb : inBackground ev <;> simp [History, ih, Engine.fate, Engine.tick, Act.hits, Task.broker, streamFate, streamTask, hb]
        | _ => simp [History, ih, Engine.fate, Engine.tick, Act.hits, Task.broker, storeFate, storeTask, queueFate, queueTask]

/-- **C121.** In every run, whatever crashes, each broker's commands are answered as they would be if the other three did not exist. -/
theorem C121_alone (pr : Printer) (c : Conf) (lossy : Bytes → Str) (max : Nat) (sd : Serde) (pe un : Str) (e0 : Engine) (es : List (Ev Fate))
    {tr : List (Obs Fate)} (htr : tr = ((World.init e0).run pr (mortalServer c lossy max sd pe un) es).2)
    (ho : Ordinary pr (mortalServer c lossy max sd pe un) tr) :
    History (storeAlone c) storeFate e0.store ((acts tr).filter (Act.hits .store)) ∧
    History (queueAlone c) (queueFate c) e0.queues ((acts tr).filter (Act.hits .queue)) ∧
    History (streamAlone c) (streamFate c lossy) e0.streams ((acts tr).filter (Act.hits .stream)) ∧
    History (hubAlone c) (hubFate c) e0.hub ((acts tr).filter (Act.hits .pubsub)) :=
  (C121_interleaving c lossy _ e0).mp (run_history pr _ e0 es htr ho)

/-! ### A concrete server -/

def exMortal : Server Engine Fate := mortalServer exConf (fun b => b) 1000 exSerde [] []

def exMortalReq (l tag now : Nat) (cmd : Cmd) : List (Ev Fate) :=
  [.call 0 tag 5000 0 cmd, .toServer l 100, .server l now .spawn, .server l now (.complete 0), .server l now (.post 0), .server l now .write, .toClient l 100]

/-- A client sets a key and pushes to a queue, which is written; the server crashes, and the client comes back, sets another key, and asks for
both keys and for the message. -/
def exMortalEvents : List (Ev Fate) :=
  [.lib 0 .connect, .lib 0 .opened]
  ++ exMortalReq 0 1 1 (.mapSet [107] ⟨none⟩ (tsAny (.raw [7])))
  ++ exMortalReq 0 2 2 (.qCreate [107] ⟨none, none⟩)
  ++ exMortalReq 0 3 3 (.qPush [107] ⟨none⟩ [0, 8])
  ++ [.tick (.task (.commit [107] 100)), .tick (.crash 50 0 0), .drop 0, .lib 0 .lost, .lib 0 .timer, .lib 0 .opened]
  ++ exMortalReq 1 4 51 (.mapSet [108] ⟨none⟩ (tsAny (.raw [9])))
  ++ exMortalReq 1 5 52 (.mapGet [107])
  ++ exMortalReq 1 6 53 (.mapGet [108])
  ++ exMortalReq 1 7 54 (.qConsume [107] ⟨none, none⟩)

def exMortalObs (l tag now : Nat) (cmd : Cmd) (op : UInt8) (body : Bytes) (r : Response) : List (Obs Fate) :=
  [.called 0 tag cmd (some (l, tag)), .executed l ⟨1, op, tag, body⟩ now (some r), .settled 0 tag (.answer (shows r).1 (shows r).2)]

def exMortalTrace : List (Obs Fate) :=
  exMortalObs 0 1 1 (.mapSet [107] ⟨none⟩ [0, 7]) 2 [0, 0, 0, 1, 107, 0, 0, 0, 2, 123, 125, 0, 7] .ok
  ++ exMortalObs 0 2 2 (.qCreate [107] ⟨none, none⟩) 16 [0, 0, 0, 1, 107, 0, 0, 0, 2, 123, 125] .ok
  ++ exMortalObs 0 3 3 (.qPush [107] ⟨none⟩ [0, 8]) 17 [0, 0, 0, 1, 107, 0, 0, 0, 2, 123, 125, 0, 8] .ok
  ++ [.ticked (.task (.commit [107] 100)), .ticked (.crash 50 0 0)]
  ++ exMortalObs 1 4 51 (.mapSet [108] ⟨none⟩ [0, 9]) 2 [0, 0, 0, 1, 108, 0, 0, 0, 2, 123, 125, 0, 9] .ok
  ++ exMortalObs 1 5 52 (.mapGet [107]) 3 [0, 0, 0, 1, 107] .null
  ++ exMortalObs 1 6 53 (.mapGet [108]) 3 [0, 0, 0, 1, 108] (.data [0, 9])
  ++ exMortalObs 1 7 54 (.qConsume [107] ⟨none, none⟩) 18 [0, 0, 0, 1, 107, 0, 0, 0, 2, 123, 125] (.data (exBatch [(0, [0, 8])]))

/-- Observations with these background steps can be compared. -/
def Obs.told : Obs Fate → Option (Obs (Nat ⊕ Nat))
  | .called p t c s => some (.called p t c s)
  | .fired p c s => some (.fired p c s)
  | .executed l f n r => some (.executed l f n r)
  | .pushed l b => some (.pushed l b)
  | .settled p t o => some (.settled p t o)
  | .ticked (.task (.commit q k)) => if q = [107] then some (.ticked (.inl k)) else none
  | .ticked (.crash n 0 0) => some (.ticked (.inr n))
  | .ticked _ => none

theorem told_inj {o o' : Obs Fate} (h : o.told = o'.told) (hs : o'.told ≠ none) : o = o' := by
  have key : ∀ o : Obs Fate, ∀ y, o.told = some y → o = match y with
      | .called p t c s => .called p t c s
      | .fired p c s => .fired p c s
      | .executed l f n r => .executed l f n r
      | .pushed l b => .pushed l b
      | .settled p t o => .settled p t o
      | .ticked (.inl k) => .ticked (.task (.commit [107] k))
      | .ticked (.inr n) => .ticked (.crash n 0 0) := by
    intro o y ho
    unfold Obs.told at ho
    split at ho <;> try (injection ho with ho; subst ho; rfl)
    · split at ho
      · next hq => injection ho with ho; subst ho; rw [hq]
      · cases ho
    · cases ho
  cases hy : o'.told with
  | none => exact absurd hy hs
  | some y => rw [key o y (h.trans hy), key o' y hy]

theorem told_map : ∀ {a b : List (Obs Fate)}, a.map Obs.told = b.map Obs.told → none ∉ b.map Obs.told → a = b
  | [], [], _, _ => rfl
  | [], _ :: _, h, _ => nomatch h
  | _ :: _, [], h, _ => nomatch h
  | x :: a, y :: b, h, hn => by
    injection h with h1 h2
    simp only [List.map_cons, List.mem_cons, not_or] at hn
    rw [told_inj h1 (fun e => hn.1 e.symm), told_map h2 hn.2]

set_option maxRecDepth 100000 in
theorem exMortalRun : ((World.init exEngine0).run exPrinter exMortal exMortalEvents).2 = exMortalTrace :=
  told_map (by decide +kernel) (by decide +kernel)

theorem exMortalOrdinary : Ordinary exPrinter exMortal exMortalTrace := by
  refine ⟨?_, ?_, ?_, fun p => countP_le _ _ _ (by decide)⟩
  · intro o ho cmd hc
    simp only [exMortalTrace, exMortalObs, List.mem_append, List.mem_cons, List.not_mem_nil, or_false, or_assoc] at ho
    rcases ho with rfl | rfl | rfl | rfl | rfl | rfl | rfl | rfl | rfl | rfl | rfl | rfl | rfl | rfl | rfl | rfl | rfl | rfl | rfl | rfl | rfl | rfl | rfl <;>
      simp only [Obs.cmd?, reduceCtorEq] at hc <;> injection hc with hc <;> subst hc
    all_goals
      first
      | refine ⟨show StrOk _ by decide, ⟨by decide, by decide⟩, ?_⟩
        intro op body hb
        injection hb with hb; injection hb with h1 h2; subst h2; decide
      | refine ⟨show StrOk _ by decide, trivial, ?_⟩
        intro op body hb
        injection hb with hb; injection hb with h1 h2; subst h2; decide
  · intro l f now r hm
    simp only [exMortalTrace, exMortalObs, List.mem_append, List.mem_cons, List.not_mem_nil, or_false, or_assoc, reduceCtorEq, false_or, Obs.executed.injEq,
      Option.some.injEq] at hm
    rcases hm with ⟨rfl, rfl, rfl, rfl⟩ | ⟨rfl, rfl, rfl, rfl⟩ | ⟨rfl, rfl, rfl, rfl⟩ | ⟨rfl, rfl, rfl, rfl⟩ | ⟨rfl, rfl, rfl, rfl⟩ | ⟨rfl, rfl, rfl, rfl⟩ |
      ⟨rfl, rfl, rfl, rfl⟩ <;> decide
  · intro l p hm
    simp [exMortalTrace, exMortalObs] at hm

/-- `C121_get_partial`: the key that was set before the crash is gone, and the one set since is there. -/
example : exMortalTrace = exMortalTrace.take 16 ++ .settled 0 5 (.answer 2 []) :: exMortalTrace.drop 17 ∧
    (∀ cmd s, Obs.called 0 5 cmd s ∈ exMortalTrace.take 16 → cmd = .mapGet [107]) ∧
    SinceCrash fateDown (exMortalTrace.take 11) ((exMortalTrace.take 15).drop 11) ∧
    storeOps fateSweep (exMortalTrace.take 11) ((exMortalTrace.take 15).drop 11) = [.set [108] [0, 9] none 51] ∧
    getResult 2 [] = some none ∧ getResult 3 [0, 9] = some (some (.raw [9])) := by
  refine ⟨rfl, ?_, ⟨.inr ⟨exMortalTrace.take 10, .crash 50 0 0, rfl, rfl⟩, ?_⟩, rfl, by decide, by decide⟩
  · intro cmd s h
    simp [exMortalTrace, exMortalObs] at h
    exact h.1
  · intro i h
    simp [exMortalTrace, exMortalObs] at h

/-- C112 at work in the same run: the message was pushed before the crash. -/
example : ∃ u₁ l' opts' t u₂, (acts exMortalTrace).take 8 = u₁ ++ .did l' (.qPush [107] opts' [0, 8]) t (some .ok) :: u₂ ∧
    uuidBytes 0 = pushedId (fun i => i) u₁ ∧ ∀ a ∈ u₂, ¬ deletes [107] a :=
  (C112_faithful_partial (supply := fun i => i) exPrinter exMortal (C121_hosts exConf (fun b => b) 1000 exSerde [] []).2.1 exEngine0 rfl _ exMortalRun.symm
    exMortalOrdinary ⟨fun i j _ _ h => h, fun i hi => Nat.lt_trans (Nat.lt_of_lt_of_le hi (by decide : _ ≤ 5)) (by decide)⟩
    (by
      intro l q o t r h
      have h' : Act.did l (.qCreate q o) t r ∈ ([
          .did 0 (.mapSet [107] ⟨none⟩ [0, 7]) 1 (some .ok), .did 0 (.qCreate [107] ⟨none, none⟩) 2 (some .ok), .did 0 (.qPush [107] ⟨none⟩ [0, 8]) 3 (some .ok),
          .ticked (.task (.commit [107] 100)), .ticked (.crash 50 0 0), .did 1 (.mapSet [108] ⟨none⟩ [0, 9]) 51 (some .ok), .did 1 (.mapGet [107]) 52 (some .null),
          .did 1 (.mapGet [108]) 53 (some (.data [0, 9])), .did 1 (.qConsume [107] ⟨none, none⟩) 54 (some (.data (exBatch [(0, [0, 8])])))] : List (Act Fate)) := h
      simp at h'
      rw [h'.2.1.1]
      exact show ¬ Queue.dotDb <:+ [107] ∧ (47 : UInt8) ∉ [107] by decide)
    (u := (acts exMortalTrace).take 8) (w := []) (l := 1) (now := 54) (q := [107]) (opts := ⟨none, none⟩) rfl).2 _ _ (by decide)

end Verif.Rpc
