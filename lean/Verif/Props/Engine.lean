import Verif.Spec.Engine
import Verif.Props.StoreRpc
import Verif.Props.StreamRpc
import Verif.Props.PubSubRpc

/-!
# C108: the four brokers do not interfere
-/

namespace Verif.Rpc

open Verif Verif.Wire Verif.Sdk

variable {E I : Type}

/-! ### The hypotheses of C94, C101, C103 and C105 about one server -/

def engineSweep : Task → Option (Str × Nat)
  | .sweep k now => some (k, now)
  | _ => none

def engineQueue : Task → Option Queue.MEvent
  | .commit q k => some (.commit q k)
  | .timeouts q t t' => some (.op q (.tick t t'))
  | _ => none

def engineStream : Task → Option (Str × Stream.Ev)
  | .stream n ev => if inBackground ev then some (n, ev) else none
  | _ => none

def engineHub : Task → Option PubSub.Op
  | .hub op => if ofHub op then some op else none
  | _ => none

def engineDesk : Desk Task where
  opened := fun l => .hub (.connect l)
  faded := fun l => .hub (.drop l)
  left := fun l => .hub (.disconnect l)

/-- **C108.** The server with all four brokers meets the assumptions of C94, C101, C103 and C105 at once: each of them holds for it, whatever
the other three brokers are asked to do meanwhile. -/
theorem C108_parts (c : Conf) (max : Nat) (sd : Serde) (pe un : Str) :
    StorePart (engineServer c max sd pe un) c.storeTtl Engine.store engineSweep ∧
    QueuePart (engineServer c max sd pe un) c.queue c.batch c.supply Engine.queues engineQueue ∧
    StreamPart (engineServer c max sd pe un) c.stream Engine.streams engineStream ∧
    PubPart (engineServer c max sd pe un) c.hub Engine.hub engineHub engineDesk := by
  refine ⟨⟨?_, ?_, ?_⟩, ⟨?_, ?_, ?_, ?_⟩, ⟨?_, ?_, ?_, ?_⟩, ⟨?_, ?_, ?_, ?_, fun _ => rfl, fun _ => rfl, fun _ => rfl⟩⟩
  · intro l now cmd e h
    cases cmd <;> first | rfl | cases h
  · intro l now cmd e h
    cases cmd <;> first | rfl | cases h
  · intro x e
    cases x with
    | stream n ev => simp only [engineServer, Engine.tick, engineSweep]; split <;> rfl
    | hub op => cases op <;> rfl
    | _ => rfl
  · intro l now cmd e h
    cases cmd <;> first | rfl | cases h
  · intro l now cmd e h
    cases cmd <;> first | rfl | cases h
  · intro x e
    cases x with
    | stream n ev => simp only [engineServer, Engine.tick, engineQueue]; split <;> rfl
    | hub op => cases op <;> rfl
    | _ => rfl
  · intro x ev h
    cases x with
    | commit q k => injection h with h; exact .inl ⟨q, k, h.symm⟩
    | timeouts q t t' => injection h with h; exact .inr ⟨q, t, t', h.symm⟩
    | _ => cases h
  · intro l now cmd e h
    cases cmd <;> first | rfl | cases h
  · intro l now cmd e h
    cases cmd <;> first | rfl | cases h
  · intro x e
    cases x with
    | stream n ev => simp only [engineServer, Engine.tick, engineStream]; split <;> rfl
    | hub op => cases op <;> rfl
    | _ => rfl
  · intro x n ev h
    cases x with
    | stream n' ev' =>
      simp only [engineStream] at h
      split at h
      · injection h with h; injection h with _ h; subst h; assumption
      · cases h
    | _ => cases h
  · intro l now cmd e h
    cases cmd <;> first | rfl | cases h
  · intro l now cmd e h
    cases cmd <;> first | rfl | cases h
  · intro x e
    cases x with
    | stream n ev => simp only [engineServer, Engine.tick, engineHub]; split <;> rfl
    | hub op => cases op <;> rfl
    | _ => rfl
  · intro x op h
    cases x with
    | hub op' =>
      simp only [engineHub] at h
      split at h
      · injection h with h; subst h; assumption
      · cases h
    | _ => cases h

/-! ### Histories -/

/-- **C108.** The histories of the server, with all answers, are exactly the interleavings of histories of the four brokers on their own. -/
theorem C108_interleaving (c : Conf) (A : List (Act Task)) (e : Engine) :
    History (Engine.exec c) (Engine.tick c) e A ↔
      History (storeAlone c) storeTask e.store (A.filter (Act.on .store)) ∧ History (queueAlone c) (queueTask c) e.queues (A.filter (Act.on .queue)) ∧
      History (streamAlone c) (streamTask c) e.streams (A.filter (Act.on .stream)) ∧ History (hubAlone c) (hubTask c) e.hub (A.filter (Act.on .pubsub)) := by
  induction A generalizing e with
  | nil => simp [History]
  | cons a A ih =>
    cases a with
    | did l cmd now r =>
      cases cmd <;>
        simp only [History, ih, Engine.exec, Act.on, List.filter_cons, Cmd.broker, Cmd.opcode, storeAlone, queueAlone, streamAlone, hubAlone,
          Nat.reduceLT, ↓reduceIte, reduceCtorEq, decide_true, decide_false, Bool.false_eq_true] <;>
        (constructor <;> intro h <;> simp only [h, and_self, true_and])
    | ticked x =>
      cases x with
      | hub op =>
        cases op <;> simp [History, ih, Engine.tick, Act.on, Task.broker, List.filter_cons, hubTask, ofHub]
      | stream n ev =>
        cases hb : inBackground ev <;> simp [History, ih, Engine.tick, Act.on, Task.broker, List.filter_cons, streamTask, hb]
      | _ => simp [History, ih, Engine.tick, Act.on, Task.broker, List.filter_cons, storeTask, queueTask]

/-- The answers are determined. -/
theorem History.determined {exec : Nat → Nat → Cmd → E → E × Option Response} {tick : I → E → E} {e : E} {A B : List (Act I)}
    (hA : History exec tick e A) (hB : History exec tick e B) (h : A.map Act.ask = B.map Act.ask) : A = B := by
  induction A generalizing e B with
  | nil =>
    cases B with
    | nil => rfl
    | cons b B => cases h
  | cons a A ih =>
    cases B with
    | nil => cases h
    | cons b B =>
      injection h with h1 h2
      cases a with
      | did l cmd now r =>
        cases b with
        | ticked x => cases h1
        | did l' cmd' now' r' =>
          injection h1 with e1 e2 e3
          subst e1 e2 e3
          rw [← hA.1, ← hB.1, ih hA.2 hB.2 h2]
      | ticked x =>
        cases b with
        | did => cases h1
        | ticked y =>
          injection h1 with e1
          subst e1
          rw [ih hA hB h2]

/-- Whatever the network does, what a server does in a run is a history of its engine. -/
theorem run_history (pr : Printer) (srv : Server E I) (e0 : E) (es : List (Ev I)) {tr : List (Obs I)}
    (htr : tr = ((World.init e0).run pr srv es).2) (ho : Ordinary pr srv tr) : History srv.exec srv.tick e0 (acts tr) := by
  subst htr
  have hf := (holds_run pr srv e0 es ho).2
  generalize ((World.init e0).run pr srv es).2 = tr at hf
  have key : ∀ a b, tr = a ++ b → ∀ B, (History srv.exec srv.tick e0 (acts a ++ B) ↔ History srv.exec srv.tick (state srv e0 a) B) := by
    intro a
    induction a using Sdk.snoc_ind with
    | h0 => intro b _ B; exact Iff.rfl
    | h1 a o ih =>
      intro b hs B
      rw [acts_snoc, state_snoc, List.append_assoc, ih (o :: b) (by rw [hs]; simp)]
      have hsh := hf.shown a o b (by rw [hs]; simp)
      cases o with
      | executed l f now r =>
        obtain ⟨cmd, hc, _, hr⟩ := hsh
        simp only [actOf, effect, hc, Option.map_some, Option.toList_some, List.cons_append, List.nil_append, History]
        exact ⟨fun h => h.2, fun h => ⟨hr.symm, h⟩⟩
      | ticked x => exact Iff.rfl
      | _ => exact Iff.rfl
  have := key tr [] (by simp) []
  rw [List.append_nil] at this
  exact this.mpr trivial

/-- **C108.** In every run of the server, each broker's commands are answered as they would be if the other three did not exist. -/
theorem C108_alone (pr : Printer) (c : Conf) (max : Nat) (sd : Serde) (pe un : Str) (e0 : Engine) (es : List (Ev Task)) {tr : List (Obs Task)}
    (htr : tr = ((World.init e0).run pr (engineServer c max sd pe un) es).2) (ho : Ordinary pr (engineServer c max sd pe un) tr) :
    History (storeAlone c) storeTask e0.store ((acts tr).filter (Act.on .store)) ∧
    History (queueAlone c) (queueTask c) e0.queues ((acts tr).filter (Act.on .queue)) ∧
    History (streamAlone c) (streamTask c) e0.streams ((acts tr).filter (Act.on .stream)) ∧
    History (hubAlone c) (hubTask c) e0.hub ((acts tr).filter (Act.on .pubsub)) :=
  (C108_interleaving c _ e0).mp (run_history pr _ e0 es htr ho)

/-- The part of the engine that belongs to a broker is the same. -/
def Engine.same (b : Broker) (e e' : Engine) : Prop :=
  match b with
  | .store => e.store = e'.store
  | .queue => e.queues = e'.queues
  | .stream => e.streams = e'.streams
  | .pubsub => e.hub = e'.hub

/-- **C108.** Two runs, with different network, schedule and commands for the other brokers, in which a broker is asked the same over the same
connections, in the same order and at the same times: it gives the same answers. -/
theorem C108_unaffected (b : Broker) (pr : Printer) (c : Conf) (max : Nat) (sd : Serde) (pe un : Str) (e0 e0' : Engine) (hsame : e0.same b e0')
    (es es' : List (Ev Task)) {tr tr' : List (Obs Task)}
    (htr : tr = ((World.init e0).run pr (engineServer c max sd pe un) es).2) (ho : Ordinary pr (engineServer c max sd pe un) tr)
    (htr' : tr' = ((World.init e0').run pr (engineServer c max sd pe un) es').2) (ho' : Ordinary pr (engineServer c max sd pe un) tr')
    (h : ((acts tr).filter (Act.on b)).map Act.ask = ((acts tr').filter (Act.on b)).map Act.ask) :
    (acts tr).filter (Act.on b) = (acts tr').filter (Act.on b) := by
  obtain ⟨h1, h2, h3, h4⟩ := C108_alone pr c max sd pe un e0 es htr ho
  obtain ⟨g1, g2, g3, g4⟩ := C108_alone pr c max sd pe un e0' es' htr' ho'
  cases b with
  | store => rw [show e0.store = e0'.store from hsame] at h1; exact h1.determined g1 h
  | queue => rw [show e0.queues = e0'.queues from hsame] at h2; exact h2.determined g2 h
  | stream => rw [show e0.streams = e0'.streams from hsame] at h3; exact h3.determined g3 h
  | pubsub => rw [show e0.hub = e0'.hub from hsame] at h4; exact h4.determined g4 h

/-! ### A concrete server -/

def exConf : Conf where
  storeTtl := 60
  queue := exQueueCfg
  batch := 10
  supply := fun i => i
  stream := exStreamEnv
  hub := exHubEnv

def exEngineServer : Server Engine Task := engineServer exConf 1000 exSerde [] []

def exEngine0 : Engine := { store := [], queues := {}, streams := {}, hub := exHub0 }

def exEngineReq (p tag now : Nat) (cmd : Cmd) : List (Ev Task) :=
  [.call p tag 5000 0 cmd, .toServer p 100, .server p now .spawn, .server p now (.complete 0), .server p now (.post 0), .server p now .write, .toClient p 100]

/-- One client uses the store, another one a queue, a stream and a subscription. -/
def exEngineEvents : List (Ev Task) :=
  [.lib 0 .connect, .lib 0 .opened, .lib 1 .connect, .lib 1 .opened]
  ++ exEngineReq 0 1 1 (.mapSet [107] ⟨none⟩ [0, 7])
  ++ exEngineReq 1 1 2 (.qCreate [107] ⟨none, none⟩)
  ++ exEngineReq 1 2 3 (.qPush [107] ⟨none⟩ [0, 8])
  ++ exEngineReq 1 3 4 (.sCreate [107] ⟨none⟩)
  ++ exEngineReq 0 2 5 (.mapGet [107])
  ++ exEngineReq 1 4 6 (.subscribe [107])

/-- The first client's part of it. -/
def exEngineEvents' : List (Ev Task) :=
  [.lib 0 .connect, .lib 0 .opened] ++ exEngineReq 0 1 1 (.mapSet [107] ⟨none⟩ [0, 7]) ++ exEngineReq 0 2 5 (.mapGet [107])

def exEngineObs {I : Type} (p tag now : Nat) (cmd : Cmd) (op : UInt8) (body : Bytes) (r : Response) : List (Obs I) :=
  [.called p tag cmd (some (p, tag)), .executed p ⟨1, op, tag, body⟩ now (some r), .settled p tag (.answer (shows r).1 (shows r).2)]

def exEngineTrace {I : Type} : List (Obs I) :=
  exEngineObs 0 1 1 (.mapSet [107] ⟨none⟩ [0, 7]) 2 [0, 0, 0, 1, 107, 0, 0, 0, 2, 123, 125, 0, 7] .ok
  ++ exEngineObs 1 1 2 (.qCreate [107] ⟨none, none⟩) 16 [0, 0, 0, 1, 107, 0, 0, 0, 2, 123, 125] .ok
  ++ exEngineObs 1 2 3 (.qPush [107] ⟨none⟩ [0, 8]) 17 [0, 0, 0, 1, 107, 0, 0, 0, 2, 123, 125, 0, 8] .ok
  ++ exEngineObs 1 3 4 (.sCreate [107] ⟨none⟩) 48 [0, 0, 0, 1, 107, 0, 0, 0, 2, 123, 125] .ok
  ++ exEngineObs 0 2 5 (.mapGet [107]) 3 [0, 0, 0, 1, 107] (.data [0, 7])
  ++ exEngineObs 1 4 6 (.subscribe [107]) 34 [0, 0, 0, 1, 107] .ok

def exEngineTrace' {I : Type} : List (Obs I) :=
  exEngineObs 0 1 1 (.mapSet [107] ⟨none⟩ [0, 7]) 2 [0, 0, 0, 1, 107, 0, 0, 0, 2, 123, 125, 0, 7] .ok
  ++ exEngineObs 0 2 5 (.mapGet [107]) 3 [0, 0, 0, 1, 107] (.data [0, 7])

/-- Observations without background steps can be compared. -/
def Obs.plain : Obs Task → Option (Obs Empty)
  | .called p t c s => some (.called p t c s)
  | .fired p c s => some (.fired p c s)
  | .executed l f n r => some (.executed l f n r)
  | .pushed l b => some (.pushed l b)
  | .settled p t o => some (.settled p t o)
  | .ticked _ => none

theorem plain_inj {o o' : Obs Task} (h : o.plain = o'.plain) (hs : o'.plain ≠ none) : o = o' := by
  cases o <;> cases o' <;> simp [Obs.plain] at h hs ⊢ <;> exact h

theorem plain_map : ∀ {a b : List (Obs Task)}, a.map Obs.plain = b.map Obs.plain → none ∉ b.map Obs.plain → a = b
  | [], [], _, _ => rfl
  | [], _ :: _, h, _ => nomatch h
  | _ :: _, [], h, _ => nomatch h
  | x :: a, y :: b, h, hn => by
    injection h with h1 h2
    simp only [List.map_cons, List.mem_cons, not_or] at hn
    rw [plain_inj h1 (fun e => hn.1 e.symm), plain_map h2 hn.2]

set_option maxRecDepth 100000 in
theorem exEngineRun : ((World.init exEngine0).run exPrinter exEngineServer exEngineEvents).2 = exEngineTrace :=
  plain_map (by decide +kernel) (by decide +kernel)

set_option maxRecDepth 100000 in
theorem exEngineRun' : ((World.init exEngine0).run exPrinter exEngineServer exEngineEvents').2 = exEngineTrace' :=
  plain_map (by decide +kernel) (by decide +kernel)

theorem exEngineOrdinary : Ordinary exPrinter exEngineServer exEngineTrace := by
  refine ⟨?_, ?_, ?_, fun p => countP_le _ _ _ (by decide)⟩
  · intro o ho cmd hc
    simp only [exEngineTrace, exEngineObs, List.mem_append, List.mem_cons, List.not_mem_nil, or_false, or_assoc] at ho
    rcases ho with rfl | rfl | rfl | rfl | rfl | rfl | rfl | rfl | rfl | rfl | rfl | rfl | rfl | rfl | rfl | rfl | rfl | rfl <;>
      simp only [Obs.cmd?, reduceCtorEq] at hc <;> injection hc with hc <;> subst hc
    · refine ⟨show StrOk _ by decide, ⟨by decide, by decide⟩, ?_⟩
      intro op body hb
      injection hb with hb; injection hb with h1 h2; subst h2; decide
    · refine ⟨show StrOk _ by decide, ⟨by decide, by decide⟩, ?_⟩
      intro op body hb
      injection hb with hb; injection hb with h1 h2; subst h2; decide
    · refine ⟨show StrOk _ by decide, ⟨by decide, by decide⟩, ?_⟩
      intro op body hb
      injection hb with hb; injection hb with h1 h2; subst h2; decide
    · refine ⟨show StrOk _ by decide, ⟨by decide, by decide⟩, ?_⟩
      intro op body hb
      injection hb with hb; injection hb with h1 h2; subst h2; decide
    · refine ⟨show StrOk _ by decide, trivial, ?_⟩
      intro op body hb
      injection hb with hb; injection hb with h1 h2; subst h2; decide
    · refine ⟨show StrOk _ by decide, trivial, ?_⟩
      intro op body hb
      injection hb with hb; injection hb with h1 h2; subst h2; decide
  · intro l f now r hm
    simp only [exEngineTrace, exEngineObs, List.mem_append, List.mem_cons, List.not_mem_nil, or_false, or_assoc, reduceCtorEq, false_or, Obs.executed.injEq,
      Option.some.injEq] at hm
    rcases hm with ⟨rfl, rfl, rfl, rfl⟩ | ⟨rfl, rfl, rfl, rfl⟩ | ⟨rfl, rfl, rfl, rfl⟩ | ⟨rfl, rfl, rfl, rfl⟩ | ⟨rfl, rfl, rfl, rfl⟩ | ⟨rfl, rfl, rfl, rfl⟩ <;> decide
  · intro l p hm
    simp [exEngineTrace, exEngineObs] at hm

theorem exEngineOrdinary' : Ordinary exPrinter exEngineServer exEngineTrace' := by
  have hsub : ∀ o : Obs Task, o ∈ exEngineTrace' → o ∈ exEngineTrace := by
    intro o ho
    simp only [exEngineTrace', exEngineTrace, List.mem_append] at ho ⊢
    rcases ho with ho | ho <;> simp [ho]
  exact ⟨fun o ho => exEngineOrdinary.cmds o (hsub o ho), fun l f now r hm => exEngineOrdinary.answers l f now r (hsub _ hm),
    fun l p hm => exEngineOrdinary.pushes l p (hsub _ hm), fun p => countP_le _ _ _ (by decide)⟩

/-- `C108_alone`: each broker has something to do. -/
example : ((acts exEngineTrace).filter (Act.on .store)).length = 2 ∧ ((acts exEngineTrace).filter (Act.on .queue)).length = 2 ∧
    ((acts exEngineTrace).filter (Act.on .stream)).length = 1 ∧ ((acts exEngineTrace).filter (Act.on .pubsub)).length = 1 := by
  refine ⟨by decide, by decide, by decide, by decide⟩

/-- `C108_unaffected`: the store is asked the same in both runs. -/
example : (acts exEngineTrace).filter (Act.on .store) = (acts exEngineTrace').filter (Act.on .store) :=
  C108_unaffected .store exPrinter exConf 1000 exSerde [] [] exEngine0 exEngine0 rfl exEngineEvents exEngineEvents' exEngineRun.symm exEngineOrdinary
    exEngineRun'.symm exEngineOrdinary' rfl

end Verif.Rpc
