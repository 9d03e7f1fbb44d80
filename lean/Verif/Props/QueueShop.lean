import Verif.Proofs.QueueShop
import Verif.Props.QueueRpc

/-!
# C109: the queues behind the network are one object (linearizability)
-/

namespace Verif.Rpc

open Verif Verif.Wire Verif.Sdk

variable {E I : Type}

/-- **C109.** The server's answers to queue commands (create, delete, exists, push, consume, ack, nack and the dead-letter commands), from
all connections, in the order in which they were carried out, are those of the queues of the specification, on which one command after
the other is carried out, with the runs of the timeout tasks between them. -/
theorem C109_answers (pr : Printer) (srv : Server E I) {cfg : Queue.Config} {batch : Nat} {supply : Nat → Queue.Id} {part : E → Queues}
    {bg : I → Option Queue.MEvent} (hp : QueuePart srv cfg batch supply part bg) (e0 : E) (h0 : part e0 = {}) (es : List (Ev I))
    {tr : List (Obs I)} (htr : tr = ((World.init e0).run pr srv es).2) (ho : Ordinary pr srv tr) (hu : Uuids supply ((acts tr).countP isPush))
    {u w : List (Act I)} {l now : Nat} {cmd : Cmd} {r : Option Response} (hs : acts tr = u ++ .did l cmd now r :: w) (hq : isQueue cmd = true) :
    tells cmd (outcome cfg.visibilityTimeout cfg.maxRetries batch supply bg u now cmd) r := by
  subst htr
  exact (told pr hp h0 es ho hu).tells hs hq

/-- **C109.** A queue command whose promise is settled with an answer takes effect at one moment between the call and the answer: it is
carried out after everything that was carried out when it was called, and the promise tells the outcome on the queues of the specification
at that moment. -/
theorem C109_linearizable (pr : Printer) (srv : Server E I) {cfg : Queue.Config} {batch : Nat} {supply : Nat → Queue.Id} {part : E → Queues}
    {bg : I → Option Queue.MEvent} (hp : QueuePart srv cfg batch supply part bg) (e0 : E) (h0 : part e0 = {}) (es : List (Ev I))
    {tr : List (Obs I)} (htr : tr = ((World.init e0).run pr srv es).2) (ho : Ordinary pr srv tr) (hu : Uuids supply ((acts tr).countP isPush))
    {a b : List (Obs I)} {p tag : Nat} {st : UInt8} {d : Bytes} {cmd : Cmd} (hs : tr = a ++ .settled p tag (.answer st d) :: b)
    (hc : ∀ c s, Obs.called p tag c s ∈ a → c = cmd) (hq : isQueue cmd = true) :
    ∃ a₁ a₂ s l now r x y, a = a₁ ++ .called p tag cmd s :: a₂ ∧ acts a = acts a₁ ++ x ++ .did l cmd now (some r) :: y ∧
      tells cmd (outcome cfg.visibilityTimeout cfg.maxRetries batch supply bg (acts a₁ ++ x) now cmd) (some r) ∧ shows r = (st, d) := by
  obtain ⟨a1, a2, s, l, now, r, x, y, h1, h2, h3⟩ := C101_carried_out pr srv e0 es htr ho hs hc
  refine ⟨a1, a2, s, l, now, r, x, y, h1, h2, ?_, h3⟩
  refine C109_answers pr srv hp e0 h0 es htr ho hu (l := l) (u := acts a1 ++ x) (w := y ++ actsFrom a (.settled p tag (.answer st d) :: b)) ?_ hq
  rw [hs, acts_append, h2]
  simp

/-! ### A concrete server -/

/-- Messages are handed out once. -/
def exShopCfg : Queue.Config := ⟨100, 1⟩

def exShopServer : Server Queues (Str × Nat × Nat) where
  max := 1000
  sd := exSerde
  exec := fun _ now cmd e => queueExec exShopCfg 10 (fun i => i) now cmd e
  tick := fun x e => { e with mgr := (e.mgr.step exShopCfg (.op x.1 (.tick x.2.1 x.2.2))).1 }

theorem exShopPart : QueuePart exShopServer exShopCfg 10 (fun i => i) (fun e => e) exQueueBg := by
  refine ⟨fun l now cmd e _ => rfl, ?_, fun x e => rfl, ?_⟩
  · intro l now cmd e hs
    cases cmd <;> first | rfl | cases hs
  · rintro x ev h
    injection h with h
    exact .inr ⟨_, _, _, h.symm⟩

def exShopReq (p tag now : Nat) (cmd : Cmd) : List (Ev (Str × Nat × Nat)) :=
  [.call p tag 5000 0 cmd, .toServer p 100, .server p now .spawn, .server p now (.complete 0), .server p now (.post 0), .server p now .write, .toClient p 100]

/-- A message is pushed, handed out and refused: it is a dead letter; it is looked at, and put back in the queue. -/
def exShopEvents : List (Ev (Str × Nat × Nat)) :=
  [.lib 0 .connect, .lib 0 .opened] ++ exShopReq 0 1 1 (.qCreate [97] ⟨none, none⟩) ++ exShopReq 0 2 2 (.qPush [97] ⟨none⟩ (tsAny (.raw [7]))) ++
    exShopReq 0 3 3 (.qConsume [97] ⟨none, none⟩) ++ exShopReq 0 4 4 (.qNack (uuidBytes 0) [97] [110, 111]) ++ exShopReq 0 5 5 (.qPeek [97] 10 0) ++
    exShopReq 0 6 6 (.qMove [97] (uuidBytes 0)) ++ exShopReq 0 7 7 (.qConsume [97] ⟨none, none⟩)

def exShopObs (tag now : Nat) (cmd : Cmd) (op : UInt8) (body : Bytes) (r : Response) : List (Obs (Str × Nat × Nat)) :=
  [.called 0 tag cmd (some (0, tag)), .executed 0 ⟨1, op, tag, body⟩ now (some r), .settled 0 tag (.answer (shows r).1 (shows r).2)]

/-- The page: one dead letter, its id, payload and reason; it was handed out once. -/
def exShopPage : Bytes := [0, 0, 0, 1, 0, 0, 0, 1] ++ uuidBytes 0 ++ [0, 0, 0, 2, 0, 7, 0, 0, 0, 1, 0, 0, 0, 2, 110, 111]

def exShopTrace : List (Obs (Str × Nat × Nat)) :=
  exShopObs 1 1 (.qCreate [97] ⟨none, none⟩) 16 [0, 0, 0, 1, 97, 0, 0, 0, 2, 123, 125] .ok
  ++ exShopObs 2 2 (.qPush [97] ⟨none⟩ [0, 7]) 17 [0, 0, 0, 1, 97, 0, 0, 0, 2, 123, 125, 0, 7] .ok
  ++ exShopObs 3 3 (.qConsume [97] ⟨none, none⟩) 18 [0, 0, 0, 1, 97, 0, 0, 0, 2, 123, 125] (.data (exBatch [(0, [0, 7])]))
  ++ exShopObs 4 4 (.qNack (uuidBytes 0) [97] [110, 111]) 26 (uuidBytes 0 ++ [0, 0, 0, 1, 97, 0, 0, 0, 2, 110, 111]) .ok
  ++ exShopObs 5 5 (.qPeek [97] 10 0) 22 [0, 0, 0, 1, 97, 0, 0, 0, 10, 0, 0, 0, 0] (.data exShopPage)
  ++ exShopObs 6 6 (.qMove [97] (uuidBytes 0)) 23 ([0, 0, 0, 1, 97] ++ uuidBytes 0) (.data [1])
  ++ exShopObs 7 7 (.qConsume [97] ⟨none, none⟩) 18 [0, 0, 0, 1, 97, 0, 0, 0, 2, 123, 125] (.data (exBatch [(0, [0, 7])]))

theorem exShopRun : ((World.init {}).run exPrinter exShopServer exShopEvents).2 = exShopTrace := by decide +kernel

theorem exShopOrdinary : Ordinary exPrinter exShopServer exShopTrace := by
  refine ⟨?_, ?_, ?_, fun p => countP_le _ _ _ (by decide)⟩
  · intro o ho cmd hc
    simp only [exShopTrace, exShopObs, List.mem_append, List.mem_cons, List.not_mem_nil, or_false, or_assoc] at ho
    rcases ho with rfl | rfl | rfl | rfl | rfl | rfl | rfl | rfl | rfl | rfl | rfl | rfl | rfl | rfl | rfl | rfl | rfl | rfl | rfl | rfl | rfl <;>
      simp only [Obs.cmd?, reduceCtorEq] at hc <;> injection hc with hc <;> subst hc
    · refine ⟨show StrOk _ by decide, ⟨by decide, by decide⟩, ?_⟩
      intro op body hb
      injection hb with hb; injection hb with h1 h2; subst h2; decide
    · refine ⟨show StrOk _ by decide, ⟨by decide, by decide⟩, ?_⟩
      intro op body hb
      injection hb with hb; injection hb with h1 h2; subst h2; decide
    · refine ⟨show StrOk _ by decide, ⟨by decide, by decide⟩, ?_⟩
      intro op body hb
      injection hb with hb; injection hb with h1 h2; subst h2; decide
    · refine ⟨⟨by decide, show StrOk [97] by decide, show StrOk [110, 111] by decide⟩, trivial, ?_⟩
      intro op body hb
      injection hb with hb; injection hb with h1 h2; subst h2; decide
    · refine ⟨⟨show StrOk [97] by decide, by decide, by decide⟩, trivial, ?_⟩
      intro op body hb
      injection hb with hb; injection hb with h1 h2; subst h2; decide
    · refine ⟨⟨by decide, show StrOk [97] by decide⟩, trivial, ?_⟩
      intro op body hb
      injection hb with hb; injection hb with h1 h2; subst h2; decide
    · refine ⟨show StrOk _ by decide, ⟨by decide, by decide⟩, ?_⟩
      intro op body hb
      injection hb with hb; injection hb with h1 h2; subst h2; decide
  · intro l f now r hm
    simp only [exShopTrace, exShopObs, List.mem_append, List.mem_cons, List.not_mem_nil, or_false, or_assoc, reduceCtorEq, false_or, Obs.executed.injEq,
      Option.some.injEq] at hm
    rcases hm with ⟨rfl, rfl, rfl, rfl⟩ | ⟨rfl, rfl, rfl, rfl⟩ | ⟨rfl, rfl, rfl, rfl⟩ | ⟨rfl, rfl, rfl, rfl⟩ | ⟨rfl, rfl, rfl, rfl⟩ | ⟨rfl, rfl, rfl, rfl⟩ |
      ⟨rfl, rfl, rfl, rfl⟩ <;> decide
  · intro l p hm
    simp [exShopTrace, exShopObs] at hm

/-- What the server did in it. -/
def exShopActs : List (Act (Str × Nat × Nat)) :=
  [.did 0 (.qCreate [97] ⟨none, none⟩) 1 (some .ok), .did 0 (.qPush [97] ⟨none⟩ [0, 7]) 2 (some .ok),
   .did 0 (.qConsume [97] ⟨none, none⟩) 3 (some (.data (exBatch [(0, [0, 7])]))), .did 0 (.qNack (uuidBytes 0) [97] [110, 111]) 4 (some .ok),
   .did 0 (.qPeek [97] 10 0) 5 (some (.data exShopPage)), .did 0 (.qMove [97] (uuidBytes 0)) 6 (some (.data [1])),
   .did 0 (.qConsume [97] ⟨none, none⟩) 7 (some (.data (exBatch [(0, [0, 7])])))]

theorem exShop_acts : acts exShopTrace = exShopActs := rfl

/-- The fifth command looks at the dead letters: the outcome is one dead letter, handed out once, refused at 4. -/
example : tells (.qPeek [97] 10 0) (outcome 100 1 10 (fun i => i) exQueueBg (exShopActs.take 4) 5 (.qPeek [97] 10 0)) (some (.data exShopPage)) ∧
    outcome 100 1 10 (fun i => i) exQueueBg (exShopActs.take 4) 5 (.qPeek [97] 10 0) = .ans (.page 1 [⟨⟨0, [0, 7], 0, 1, 2⟩, 4, [110, 111]⟩]) := by
  refine ⟨C109_answers (supply := fun i => i) exPrinter exShopServer exShopPart {} rfl exShopEvents exShopRun.symm exShopOrdinary
    ⟨fun _ _ _ _ h => h, fun i hi => Nat.lt_of_lt_of_le hi (by decide)⟩ (l := 0) (w := exShopActs.drop 5) (by rw [exShop_acts]; rfl) rfl, by rfl⟩

/-- The last consume hands the message out again. -/
example : ∃ a₁ a₂ s l now r x y, exShopTrace.take 20 = a₁ ++ .called 0 7 (.qConsume [97] ⟨none, none⟩) s :: a₂ ∧
    acts (exShopTrace.take 20) = acts a₁ ++ x ++ .did l (.qConsume [97] ⟨none, none⟩) now (some r) :: y ∧
    tells (.qConsume [97] ⟨none, none⟩) (outcome 100 1 10 (fun i => i) exQueueBg (acts a₁ ++ x) now (.qConsume [97] ⟨none, none⟩)) (some r) ∧
    shows r = (3, exBatch [(0, [0, 7])]) :=
  C109_linearizable (supply := fun i => i) exPrinter exShopServer exShopPart {} rfl exShopEvents exShopRun.symm exShopOrdinary
    ⟨fun _ _ _ _ h => h, fun i hi => Nat.lt_of_lt_of_le hi (by decide)⟩ (b := []) rfl
    (by intro c s hm; simp [exShopTrace, exShopObs] at hm; exact hm.1) rfl

end Verif.Rpc
