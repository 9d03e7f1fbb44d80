import Verif.Proofs.QueueStorm
import Verif.Props.QueueRpc

/-!
# C112: the queues across crashes, as an application behind the network sees them

The English statement is in `/verif/properties.jsonl`.  The server of these theorems (`QueueHost`) may crash at any moment and start
again from what the writers of its queues have committed.
-/

namespace Verif.Rpc

open Verif Verif.Wire Verif.Sdk

variable {E I : Type}

theorem run_split (pr : Printer) (srv : Server E I) (w : World E) (es fs : List (Ev I)) :
    w.run pr srv (es ++ fs) = (((w.run pr srv es).1.run pr srv fs).1, (w.run pr srv es).2 ++ ((w.run pr srv es).1.run pr srv fs).2) := by
  induction es generalizing w with
  | nil => simp [World.run]
  | cons x es ih => simp only [List.cons_append, World.run, ih, List.append_assoc]

/-- What is stored in the engine in the middle of a run. -/
theorem stored_at (pr : Printer) {srv : Server E I} {cfg : Queue.Config} {batch : Nat} {supply : Nat → Queue.Id} {part : E → Queues}
    {bg : I → Option Queue.MEvent} (hp : QueueHost srv cfg batch supply part bg) {e0 : E} (h0 : part e0 = {}) (es₁ es₂ : List (Ev I))
    (ho : Ordinary pr srv ((World.init e0).run pr srv (es₁ ++ es₂)).2) {A : List (Act I)} (hA : acts ((World.init e0).run pr srv es₁).2 = A) {q : Str} {i : Bytes}
    (hw : Stored (part ((World.init e0).run pr srv es₁).1.engine) q i) :
    Stored ⟨(Queue.Mgr.new.run cfg (events batch supply bg 0 A)).1, 0⟩ q i := by
  rw [run_split] at ho
  have h := queues_after pr hp h0 es₁ ho.left
  rw [hA] at h
  unfold Stored at hw ⊢
  rw [h] at hw
  exact hw

/-! ## C112 -/

/-- **C112** (partial: no name of a queue ends in ".db", and storage operations reach the writer in the order of the calls).  Whatever crashes:
everything that a `consume` hands out was pushed to that queue before, with that id and that payload, the push was answered `ok`, and
the queue was not deleted in between; no message is in one answer twice. -/
theorem C112_faithful_partial (pr : Printer) (srv : Server E I) {cfg : Queue.Config} {batch : Nat} {supply : Nat → Queue.Id} {part : E → Queues}
    {bg : I → Option Queue.MEvent} (hp : QueueHost srv cfg batch supply part bg) (e0 : E) (h0 : part e0 = {}) (es : List (Ev I))
    {tr : List (Obs I)} (htr : tr = ((World.init e0).run pr srv es).2) (ho : Ordinary pr srv tr) (hu : Uuids supply ((acts tr).countP isPush))
    (hn : ∀ l q o t r, Act.did l (.qCreate q o) t r ∈ acts tr → Queue.plainName q)
    {u w : List (Act I)} {l now : Nat} {q : Str} {opts : ConsumeOpts} {r : Option Response}
    (hs : acts tr = u ++ .did l (.qConsume q opts) now r :: w) :
    (handedIds r).Nodup ∧ ∀ i pl, (i, pl) ∈ handed r → ∃ u₁ l' opts' t u₂, u = u₁ ++ .did l' (.qPush q opts' pl) t (some .ok) :: u₂ ∧
      i = pushedId supply u₁ ∧ ∀ a ∈ u₂, ¬ deletes q a := by
  subst htr
  exact (stormy pr hp h0 es ho hu hn).faithful hs

/-- **C112** (partial: likewise; and the message was written before the first crash).  No message is lost in a crash: a `push` was answered `ok`, at
some moment before the first crash after it (`es₁`) nothing about the message still had to be written, and, whatever crashes since then,
nobody was handed the message, nobody acknowledged or refused it, and the queue was not deleted; then a `consume` that has room for it
hands it out. -/
theorem C112_no_loss_partial (pr : Printer) (srv : Server E I) {cfg : Queue.Config} {batch : Nat} {supply : Nat → Queue.Id} {part : E → Queues}
    {bg : I → Option Queue.MEvent} (hp : QueueHost srv cfg batch supply part bg) (e0 : E) (h0 : part e0 = {}) (es₁ es₂ : List (Ev I))
    {tr : List (Obs I)} (htr : tr = ((World.init e0).run pr srv (es₁ ++ es₂)).2) (ho : Ordinary pr srv tr) (hu : Uuids supply ((acts tr).countP isPush))
    (hn : ∀ l q o t r, Act.did l (.qCreate q o) t r ∈ acts tr → Queue.plainName q)
    {u v₁ v₂ w : List (Act I)} {l t l' now : Nat} {q : Str} {opts : PushOpts} {pl : Bytes} {opts' : ConsumeOpts} {r : Option Response}
    (h₁ : acts ((World.init e0).run pr srv es₁).2 = u ++ .did l (.qPush q opts pl) t (some .ok) :: v₁)
    (hw : Stored (part ((World.init e0).run pr srv es₁).1.engine) q (pushedId supply u)) (hc : ∀ a ∈ v₁, ¬ crashes bg a)
    (hs : acts tr = u ++ .did l (.qPush q opts pl) t (some .ok) :: (v₁ ++ v₂) ++ .did l' (.qConsume q opts') now r :: w)
    (hd : ∀ a ∈ v₁ ++ v₂, ¬ deletes q a) (hh : ∀ a ∈ v₁ ++ v₂, ¬ handsOut q (pushedId supply u) a)
    (hst : ∀ a ∈ v₁ ++ v₂, ¬ settles q (pushedId supply u) a) (hr : r ≠ none)
    (hm : (handed r).length < opts'.batchSize.getD batch) : (pushedId supply u, pl) ∈ handed r := by
  subst htr
  exact (stormy pr hp h0 _ ho hu hn).no_loss hs hd hh hst hc (stored_at pr hp h0 es₁ es₂ ho h₁ hw) hr hm

/-- **C112** (partial: likewise).  A crash does not undo an `ack`: once it was answered `ok` and written, the message is not handed out any
more, whatever crashes. -/
theorem C112_ack_final_partial (pr : Printer) (srv : Server E I) {cfg : Queue.Config} {batch : Nat} {supply : Nat → Queue.Id} {part : E → Queues}
    {bg : I → Option Queue.MEvent} (hp : QueueHost srv cfg batch supply part bg) (e0 : E) (h0 : part e0 = {}) (es₁ es₂ : List (Ev I))
    {tr : List (Obs I)} (htr : tr = ((World.init e0).run pr srv (es₁ ++ es₂)).2) (ho : Ordinary pr srv tr) (hu : Uuids supply ((acts tr).countP isPush))
    (hn : ∀ l q o t r, Act.did l (.qCreate q o) t r ∈ acts tr → Queue.plainName q)
    {u v₁ v₂ w : List (Act I)} {l l' t now : Nat} {q : Str} {opts : ConsumeOpts} {r : Option Response} {i : Bytes}
    (h₁ : acts ((World.init e0).run pr srv es₁).2 = u ++ .did l (.qAck i q) t (some .ok) :: v₁)
    (hw : Stored (part ((World.init e0).run pr srv es₁).1.engine) q i) (hc : ∀ a ∈ v₁, ¬ crashes bg a)
    (hs : acts tr = u ++ .did l (.qAck i q) t (some .ok) :: (v₁ ++ v₂) ++ .did l' (.qConsume q opts) now r :: w) : i ∉ handedIds r := by
  subst htr
  exact (stormy pr hp h0 _ ho hu hn).ack_final hs hc (stored_at pr hp h0 es₁ es₂ ho h₁ hw)

/-- **C112** (partial: likewise).  A crash does not cut a visibility timeout short: a message that was handed out, with that written, is
not handed out a second time unless in between it was refused, or the timeout task ran when its timeout had elapsed, or the server
started when its timeout had elapsed. -/
theorem C112_exclusive_partial (pr : Printer) (srv : Server E I) {cfg : Queue.Config} {batch : Nat} {supply : Nat → Queue.Id} {part : E → Queues}
    {bg : I → Option Queue.MEvent} (hp : QueueHost srv cfg batch supply part bg) (e0 : E) (h0 : part e0 = {}) (es₁ es₂ : List (Ev I))
    {tr : List (Obs I)} (htr : tr = ((World.init e0).run pr srv (es₁ ++ es₂)).2) (ho : Ordinary pr srv tr) (hu : Uuids supply ((acts tr).countP isPush))
    (hn : ∀ l q o t r, Act.did l (.qCreate q o) t r ∈ acts tr → Queue.plainName q)
    {u v₁ v₂ w : List (Act I)} {l l' now now' vt : Nat} {q : Str} {opts opts' : ConsumeOpts} {r r' : Option Response} {i : Bytes}
    (h₁ : acts ((World.init e0).run pr srv es₁).2 = u ++ .did l (.qConsume q opts) now r :: v₁)
    (hw : Stored (part ((World.init e0).run pr srv es₁).1.engine) q i) (hc : ∀ a ∈ v₁, ¬ crashes bg a)
    (hs : acts tr = u ++ .did l (.qConsume q opts) now r :: (v₁ ++ v₂) ++ .did l' (.qConsume q opts') now' r' :: w)
    (hi : i ∈ handedIds r) (hi' : i ∈ handedIds r')
    (hvt : ∀ l o t r, Act.did l (.qCreate q o) t r ∈ u → vt ≤ o.visibilityTimeoutMs.getD cfg.visibilityTimeout) :
    ∃ a ∈ v₁ ++ v₂, (∃ l reason t r, a = .did l (.qNack i q reason) t r) ∨ timeoutFrom bg q (now + vt) a ∨ ∃ t, now + vt ≤ t ∧ crashesAt bg t a := by
  subst htr
  exact (stormy pr hp h0 _ ho hu hn).exclusive hs hi hi' hc (stored_at pr hp h0 es₁ es₂ ho h₁ hw) hvt

/-- **C112** (partial: likewise).  Crashes neither make nor remove queues: `exists` says `ok` exactly if the queue was created and not deleted
since. -/
theorem C112_exists_partial (pr : Printer) (srv : Server E I) {cfg : Queue.Config} {batch : Nat} {supply : Nat → Queue.Id} {part : E → Queues}
    {bg : I → Option Queue.MEvent} (hp : QueueHost srv cfg batch supply part bg) (e0 : E) (h0 : part e0 = {}) (es : List (Ev I))
    {tr : List (Obs I)} (htr : tr = ((World.init e0).run pr srv es).2) (ho : Ordinary pr srv tr) (hu : Uuids supply ((acts tr).countP isPush))
    (hn : ∀ l q o t r, Act.did l (.qCreate q o) t r ∈ acts tr → Queue.plainName q)
    {u w : List (Act I)} {l now : Nat} {q : Str} {r : Option Response} (hs : acts tr = u ++ .did l (.qExists q) now r :: w) :
    r = some .ok ↔ ∃ u₁ l' opts t r' u₂, u = u₁ ++ .did l' (.qCreate q opts) t r' :: u₂ ∧ ∀ a ∈ u₂, ¬ deletes q a := by
  subst htr
  exact (stormy pr hp h0 es ho hu hn).exists hs

/-! ## A concrete server -/

/-- The background of a server with nothing but queues. -/
def exCrashBg : Queue.MEvent → Option Queue.MEvent
  | .commit n k => some (.commit n k)
  | .op n (.tick t t') => some (.op n (.tick t t'))
  | .restart now => some (.restart now)
  | _ => none

def exCrashServer : Server Queues Queue.MEvent where
  max := 1000
  sd := exSerde
  exec := fun _ now cmd e => queueExec exQueueCfg 10 (fun i => i) now cmd e
  tick := fun x e => match exCrashBg x with | some ev => { e with mgr := (e.mgr.step exQueueCfg ev).1 } | none => e

theorem exCrashHost : QueueHost exCrashServer exQueueCfg 10 (fun i => i) (fun e => e) exCrashBg := by
  refine ⟨fun l now cmd e _ => rfl, ?_, fun x e => rfl, ?_⟩
  · intro l now cmd e hs
    cases cmd <;> first | rfl | cases hs
  · intro x ev h
    cases x with
    | commit n k => injection h with h; exact .inl ⟨n, k, h.symm⟩
    | restart now => injection h with h; exact .inr (.inr ⟨now, h.symm⟩)
    | op n o =>
      cases o with
      | tick t t' => injection h with h; exact .inr (.inl ⟨n, t, t', h.symm⟩)
      | _ => cases h
    | _ => cases h

/-- The client calls, over connection `l`, and gets its answer. -/
def exAsk (l tag now : Nat) (cmd : Cmd) : List (Ev Queue.MEvent) :=
  [.call 0 tag 5000 0 cmd, .toServer l 100, .server l now .spawn, .server l now (.complete 0), .server l now (.post 0), .server l now .write, .toClient l 100]

/-- The server crashes and starts again, and the client reconnects. -/
def exBreak (l now : Nat) : List (Ev Queue.MEvent) := [.tick (.restart now), .drop l, .lib 0 .lost, .lib 0 .timer, .lib 0 .opened]

/-- A client creates a queue, pushes a message, gets it, acknowledges it, and pushes another one; all this is written. -/
def exCrash1 : List (Ev Queue.MEvent) :=
  [.lib 0 .connect, .lib 0 .opened] ++ exAsk 0 1 1 (.qCreate [97] ⟨none, none⟩) ++ exAsk 0 2 2 (.qPush [97] ⟨none⟩ [0, 7]) ++
  exAsk 0 3 3 (.qConsume [97] ⟨none, none⟩) ++ exAsk 0 4 4 (.qAck (uuidBytes 0) [97]) ++ exAsk 0 5 5 (.qPush [97] ⟨none⟩ [0, 8]) ++ [.tick (.commit [97] 100)]

/-- Then the server crashes twice, the client gets the second message, and that is written. -/
def exCrash2 : List (Ev Queue.MEvent) := exBreak 0 6 ++ exBreak 1 7 ++ exAsk 2 6 8 (.qConsume [97] ⟨none, none⟩) ++ [.tick (.commit [97] 100)]

/-- It crashes again, and nothing is handed out; much later it crashes once more, and the second message, whose timeout has elapsed, is
handed out again. -/
def exCrash3 : List (Ev Queue.MEvent) :=
  exBreak 2 9 ++ exAsk 3 7 10 (.qConsume [97] ⟨none, none⟩) ++ exBreak 3 300 ++ exAsk 4 8 301 (.qConsume [97] ⟨none, none⟩) ++ exAsk 4 9 302 (.qExists [97])

def exCrashTrace : List (Obs Queue.MEvent) :=
  [.called 0 1 (.qCreate [97] ⟨none, none⟩) (some (0, 1)), .executed 0 ⟨1, 16, 1, [0, 0, 0, 1, 97, 0, 0, 0, 2, 123, 125]⟩ 1 (some .ok), .settled 0 1 (.answer 0 []),
   .called 0 2 (.qPush [97] ⟨none⟩ [0, 7]) (some (0, 2)), .executed 0 ⟨1, 17, 2, [0, 0, 0, 1, 97, 0, 0, 0, 2, 123, 125, 0, 7]⟩ 2 (some .ok), .settled 0 2 (.answer 0 []),
   .called 0 3 (.qConsume [97] ⟨none, none⟩) (some (0, 3)), .executed 0 ⟨1, 18, 3, [0, 0, 0, 1, 97, 0, 0, 0, 2, 123, 125]⟩ 3 (some (.data (exBatch [(0, [0, 7])]))),
   .settled 0 3 (.answer 3 (exBatch [(0, [0, 7])])),
   .called 0 4 (.qAck (uuidBytes 0) [97]) (some (0, 4)), .executed 0 ⟨1, 19, 4, uuidBytes 0 ++ [0, 0, 0, 1, 97]⟩ 4 (some .ok), .settled 0 4 (.answer 0 []),
   .called 0 5 (.qPush [97] ⟨none⟩ [0, 8]) (some (0, 5)), .executed 0 ⟨1, 17, 5, [0, 0, 0, 1, 97, 0, 0, 0, 2, 123, 125, 0, 8]⟩ 5 (some .ok), .settled 0 5 (.answer 0 []),
   .ticked (.commit [97] 100), .ticked (.restart 6), .ticked (.restart 7),
   .called 0 6 (.qConsume [97] ⟨none, none⟩) (some (2, 6)), .executed 2 ⟨1, 18, 6, [0, 0, 0, 1, 97, 0, 0, 0, 2, 123, 125]⟩ 8 (some (.data (exBatch [(1, [0, 8])]))),
   .settled 0 6 (.answer 3 (exBatch [(1, [0, 8])])),
   .ticked (.commit [97] 100), .ticked (.restart 9),
   .called 0 7 (.qConsume [97] ⟨none, none⟩) (some (3, 7)), .executed 3 ⟨1, 18, 7, [0, 0, 0, 1, 97, 0, 0, 0, 2, 123, 125]⟩ 10 (some (.data (exBatch []))),
   .settled 0 7 (.answer 3 (exBatch [])), .ticked (.restart 300),
   .called 0 8 (.qConsume [97] ⟨none, none⟩) (some (4, 8)), .executed 4 ⟨1, 18, 8, [0, 0, 0, 1, 97, 0, 0, 0, 2, 123, 125]⟩ 301 (some (.data (exBatch [(1, [0, 8])]))),
   .settled 0 8 (.answer 3 (exBatch [(1, [0, 8])])),
   .called 0 9 (.qExists [97]) (some (4, 9)), .executed 4 ⟨1, 20, 9, [0, 0, 0, 1, 97]⟩ 302 (some .ok), .settled 0 9 (.answer 0 [])]

def exCrashActs : List (Act Queue.MEvent) :=
  [.did 0 (.qCreate [97] ⟨none, none⟩) 1 (some .ok), .did 0 (.qPush [97] ⟨none⟩ [0, 7]) 2 (some .ok),
   .did 0 (.qConsume [97] ⟨none, none⟩) 3 (some (.data (exBatch [(0, [0, 7])]))), .did 0 (.qAck (uuidBytes 0) [97]) 4 (some .ok),
   .did 0 (.qPush [97] ⟨none⟩ [0, 8]) 5 (some .ok), .ticked (.commit [97] 100), .ticked (.restart 6), .ticked (.restart 7),
   .did 2 (.qConsume [97] ⟨none, none⟩) 8 (some (.data (exBatch [(1, [0, 8])]))), .ticked (.commit [97] 100), .ticked (.restart 9),
   .did 3 (.qConsume [97] ⟨none, none⟩) 10 (some (.data (exBatch []))), .ticked (.restart 300),
   .did 4 (.qConsume [97] ⟨none, none⟩) 301 (some (.data (exBatch [(1, [0, 8])]))), .did 4 (.qExists [97]) 302 (some .ok)]

theorem exCrash_acts : acts exCrashTrace = exCrashActs := rfl

set_option maxRecDepth 100000 in
theorem exCrashRun : ((World.init {}).run exPrinter exCrashServer (exCrash1 ++ (exCrash2 ++ exCrash3))).2 = exCrashTrace := by decide +kernel

set_option maxRecDepth 100000 in
theorem exCrashRun1 : ((World.init {}).run exPrinter exCrashServer exCrash1).2 = exCrashTrace.take 16 := by decide +kernel

set_option maxRecDepth 100000 in
theorem exCrashRun2 : ((World.init {}).run exPrinter exCrashServer (exCrash1 ++ exCrash2)).2 = exCrashTrace.take 22 := by decide +kernel

/-- The commands of the example. -/
theorem exCrash_cmd {cmd : Cmd} (h : cmd = .qCreate [97] ⟨none, none⟩ ∨ cmd = .qPush [97] ⟨none⟩ [0, 7] ∨ cmd = .qPush [97] ⟨none⟩ [0, 8] ∨
    cmd = .qConsume [97] ⟨none, none⟩ ∨ cmd = .qAck (uuidBytes 0) [97] ∨ cmd = .qExists [97]) :
    cmd.Fits ∧ cmd.Json exCrashServer.sd exPrinter ∧ ∀ op body, tsBody exPrinter cmd = some (op, body) → body.length < 2 ^ 32 := by
  rcases h with rfl | rfl | rfl | rfl | rfl | rfl
  · refine ⟨show StrOk [97] by decide, ⟨by decide, by decide⟩, ?_⟩
    intro op body hb
    injection hb with hb; injection hb with h1 h2; subst h2; decide
  · refine ⟨show StrOk [97] by decide, ⟨by decide, by decide⟩, ?_⟩
    intro op body hb
    injection hb with hb; injection hb with h1 h2; subst h2; decide
  · refine ⟨show StrOk [97] by decide, ⟨by decide, by decide⟩, ?_⟩
    intro op body hb
    injection hb with hb; injection hb with h1 h2; subst h2; decide
  · refine ⟨show StrOk [97] by decide, ⟨by decide, by decide⟩, ?_⟩
    intro op body hb
    injection hb with hb; injection hb with h1 h2; subst h2; decide
  · refine ⟨⟨by decide, show StrOk [97] by decide⟩, trivial, ?_⟩
    intro op body hb
    injection hb with hb; injection hb with h1 h2; subst h2; decide
  · refine ⟨show StrOk [97] by decide, trivial, ?_⟩
    intro op body hb
    injection hb with hb; injection hb with h1 h2; subst h2; decide

theorem exCrashOrdinary : Ordinary exPrinter exCrashServer exCrashTrace := by
  refine ⟨?_, ?_, ?_, fun p => countP_le _ _ _ (by decide)⟩
  · intro o ho cmd hc
    apply exCrash_cmd
    have : cmd ∈ exCrashTrace.filterMap Obs.cmd? := List.mem_filterMap.2 ⟨o, ho, hc⟩
    simp only [exCrashTrace, Obs.cmd?, List.filterMap, List.mem_cons, List.not_mem_nil, or_false] at this
    rcases this with h | h | h | h | h | h | h | h | h <;> simp [h]
  · intro l f now r hm
    simp only [exCrashTrace, List.mem_cons, List.not_mem_nil, or_false, reduceCtorEq, false_or, Obs.executed.injEq, Option.some.injEq] at hm
    rcases hm with ⟨rfl, rfl, rfl, rfl⟩ | ⟨rfl, rfl, rfl, rfl⟩ | ⟨rfl, rfl, rfl, rfl⟩ | ⟨rfl, rfl, rfl, rfl⟩ | ⟨rfl, rfl, rfl, rfl⟩ | ⟨rfl, rfl, rfl, rfl⟩ |
      ⟨rfl, rfl, rfl, rfl⟩ | ⟨rfl, rfl, rfl, rfl⟩ | ⟨rfl, rfl, rfl, rfl⟩ <;> decide
  · intro l p hm
    simp [exCrashTrace] at hm

theorem exCrash_uuids : Uuids (fun i => i) (exCrashActs.countP isPush) :=
  ⟨fun _ _ _ _ h => h, fun i hi => Nat.lt_of_lt_of_le hi (by decide)⟩

theorem exCrash_names : ∀ l q o t r, Act.did l (.qCreate q o) t r ∈ acts exCrashTrace → Queue.plainName q := by
  intro l q o t r hm
  rw [exCrash_acts] at hm
  simp only [exCrashActs, List.mem_cons, List.not_mem_nil, or_false, reduceCtorEq, Act.did.injEq, Cmd.qCreate.injEq] at hm
  simp only [false_and, and_false, or_false] at hm
  rw [hm.2.1.1]
  exact (by decide : ¬ Queue.dotDb <:+ [97] ∧ (47 : UInt8) ∉ [97])

theorem stored_empty {s : Queues} {q : Str} {i : Bytes} (h : (mget s.mgr.live q).map (·.pending) = some []) : Stored s q i := by
  intro live hl op ho
  rw [hl] at h
  simp only [Option.map_some, Option.some.injEq] at h
  rw [h] at ho
  cases ho

set_option maxRecDepth 100000 in
theorem exCrash_stored1 (i : Bytes) : Stored ((World.init ({} : Queues)).run exPrinter exCrashServer exCrash1).1.engine [97] i := stored_empty (by decide +kernel)

set_option maxRecDepth 100000 in
theorem exCrash_stored2 (i : Bytes) : Stored ((World.init ({} : Queues)).run exPrinter exCrashServer (exCrash1 ++ exCrash2)).1.engine [97] i :=
  stored_empty (by decide +kernel)

theorem exCommit_calm {v : List (Act Queue.MEvent)} (h : v.all (fun a => match a with | .ticked (.restart _) => false | _ => true) = true) :
    ∀ a ∈ v, ¬ crashes exCrashBg a := by
  rintro a ha ⟨now, x, rfl, hx⟩
  have := List.all_eq_true.1 h _ ha
  cases x with
  | restart n => simp at this
  | op n o => cases o <;> simp [exCrashBg] at hx
  | _ => simp [exCrashBg] at hx

/-- The hypotheses of the theorems above are met.  `C112_no_loss_partial`: the second push was written before two crashes; it is handed out after
them. -/
example : (uuidBytes 1, [0, 8]) ∈ handed (some (.data (exBatch [(1, [0, 8])]))) := by
  refine C112_no_loss_partial (supply := fun i => i) exPrinter exCrashServer exCrashHost {} rfl exCrash1 (exCrash2 ++ exCrash3) exCrashRun.symm exCrashOrdinary
    exCrash_uuids exCrash_names (u := exCrashActs.take 4) (v₁ := [.ticked (.commit [97] 100)]) (v₂ := [.ticked (.restart 6), .ticked (.restart 7)]) (w := exCrashActs.drop 9)
    (l := 0) (t := 5) (l' := 2) (now := 8) (q := [97]) (opts := ⟨none⟩) (opts' := ⟨none, none⟩) (by rw [exCrashRun1]; rfl) (exCrash_stored1 _)
    (exCommit_calm rfl) rfl ?_ ?_ ?_ (by simp) (by decide)
  · intro a ha
    simp only [List.cons_append, List.nil_append, List.mem_cons, List.not_mem_nil, or_false] at ha
    rintro ⟨_, _, _, rfl⟩
    simp at ha
  · intro a ha
    simp only [List.cons_append, List.nil_append, List.mem_cons, List.not_mem_nil, or_false] at ha
    rintro ⟨_, _, _, _, rfl, _⟩
    simp at ha
  · intro a ha
    simp only [List.cons_append, List.nil_append, List.mem_cons, List.not_mem_nil, or_false] at ha
    rintro (⟨_, _, _, rfl⟩ | ⟨_, _, _, _, rfl⟩) <;> simp at ha

/-- `C112_ack_final_partial`: the first message was acknowledged; four crashes later it is not handed out. -/
example : uuidBytes 0 ∉ handedIds (some (.data (exBatch [(1, [0, 8])]))) :=
  C112_ack_final_partial (supply := fun i => i) exPrinter exCrashServer exCrashHost {} rfl exCrash1 (exCrash2 ++ exCrash3) exCrashRun.symm exCrashOrdinary
    exCrash_uuids exCrash_names (u := exCrashActs.take 3) (v₁ := (exCrashActs.take 6).drop 4) (v₂ := (exCrashActs.take 13).drop 6) (w := exCrashActs.drop 14)
    (l := 0) (t := 4) (l' := 4) (now := 301) (q := [97]) (opts := ⟨none, none⟩) (by rw [exCrashRun1]; rfl) (exCrash_stored1 _) (exCommit_calm rfl) rfl

/-- `C112_exclusive_partial`: the second message is handed out twice, at 8 and at 301, and in between the server was started at 300. -/
example : ∃ a ∈ (exCrashActs.take 13).drop 9, (∃ l reason t r, a = .did l (.qNack (uuidBytes 1) [97] reason) t r) ∨ timeoutFrom exCrashBg [97] (8 + 100) a ∨
    ∃ t, 8 + 100 ≤ t ∧ crashesAt exCrashBg t a :=
  C112_exclusive_partial (supply := fun i => i) exPrinter exCrashServer exCrashHost {} rfl (exCrash1 ++ exCrash2) exCrash3
    (by rw [List.append_assoc]; exact exCrashRun.symm) exCrashOrdinary exCrash_uuids exCrash_names
    (u := exCrashActs.take 8) (v₁ := [.ticked (.commit [97] 100)]) (v₂ := (exCrashActs.take 13).drop 10) (w := exCrashActs.drop 14)
    (l := 2) (now := 8) (l' := 4) (now' := 301) (q := [97]) (opts := ⟨none, none⟩) (opts' := ⟨none, none⟩) (by rw [exCrashRun2]; rfl) (exCrash_stored2 _)
    (exCommit_calm rfl) rfl (by decide) (by decide) (by
      intro l o t r hm
      simp only [exCrashActs, List.take, List.mem_cons, List.not_mem_nil, or_false, reduceCtorEq, Act.did.injEq, Cmd.qCreate.injEq] at hm
      simp only [false_and, and_false, or_false] at hm
      rw [hm.2.1.2]; decide)

/-- `C112_faithful_partial` and `C112_exists_partial`: the answers after the last crash. -/
example : ∃ u₁ l' opts' t u₂, exCrashActs.take 13 = u₁ ++ .did l' (.qPush [97] opts' [0, 8]) t (some .ok) :: u₂ ∧
    uuidBytes 1 = pushedId (fun i => i) u₁ ∧ ∀ a ∈ u₂, ¬ deletes [97] a :=
  (C112_faithful_partial (supply := fun i => i) exPrinter exCrashServer exCrashHost {} rfl _ exCrashRun.symm exCrashOrdinary exCrash_uuids exCrash_names
    (u := exCrashActs.take 13) (w := exCrashActs.drop 14) (l := 4) (now := 301) (q := [97]) (opts := ⟨none, none⟩) rfl).2 _ _ (by decide)

example : ∃ u₁ l' opts t r' u₂, exCrashActs.take 14 = u₁ ++ .did l' (.qCreate [97] opts) t r' :: u₂ ∧ ∀ a ∈ u₂, ¬ deletes [97] a :=
  (C112_exists_partial (supply := fun i => i) exPrinter exCrashServer exCrashHost {} rfl _ exCrashRun.symm exCrashOrdinary exCrash_uuids exCrash_names
    (u := exCrashActs.take 14) (w := []) (l := 4) (now := 302) (q := [97]) rfl).1 rfl

/-! ### What is not written is lost -/

/-- A push is answered, the server crashes, and the client consumes. -/
def exLostPush : List (Ev Queue.MEvent) :=
  [.lib 0 .connect, .lib 0 .opened] ++ exAsk 0 1 1 (.qCreate [97] ⟨none, none⟩) ++ exAsk 0 2 2 (.qPush [97] ⟨none⟩ [0, 7]) ++ exBreak 0 3 ++
  exAsk 1 3 4 (.qConsume [97] ⟨none, none⟩)

/-- A message is pushed and handed out, and that is written; its ack is answered, the server crashes and starts when its timeout has
elapsed, and the client consumes. -/
def exLostAck : List (Ev Queue.MEvent) :=
  [.lib 0 .connect, .lib 0 .opened] ++ exAsk 0 1 1 (.qCreate [97] ⟨none, none⟩) ++ exAsk 0 2 2 (.qPush [97] ⟨none⟩ [0, 7]) ++
  exAsk 0 3 3 (.qConsume [97] ⟨none, none⟩) ++ [.tick (.commit [97] 100)] ++ exAsk 0 4 4 (.qAck (uuidBytes 0) [97]) ++ exBreak 0 200 ++
  exAsk 1 5 201 (.qConsume [97] ⟨none, none⟩)

def exLostPushTrace : List (Obs Queue.MEvent) :=
  [.called 0 1 (.qCreate [97] ⟨none, none⟩) (some (0, 1)), .executed 0 ⟨1, 16, 1, [0, 0, 0, 1, 97, 0, 0, 0, 2, 123, 125]⟩ 1 (some .ok), .settled 0 1 (.answer 0 []),
   .called 0 2 (.qPush [97] ⟨none⟩ [0, 7]) (some (0, 2)), .executed 0 ⟨1, 17, 2, [0, 0, 0, 1, 97, 0, 0, 0, 2, 123, 125, 0, 7]⟩ 2 (some .ok), .settled 0 2 (.answer 0 []),
   .ticked (.restart 3),
   .called 0 3 (.qConsume [97] ⟨none, none⟩) (some (1, 3)), .executed 1 ⟨1, 18, 3, [0, 0, 0, 1, 97, 0, 0, 0, 2, 123, 125]⟩ 4 (some (.data (exBatch []))),
   .settled 0 3 (.answer 3 (exBatch []))]

set_option maxRecDepth 100000 in
theorem exLostPushRun : ((World.init {}).run exPrinter exCrashServer exLostPush).2 = exLostPushTrace := by decide +kernel

def exLostAckTrace : List (Obs Queue.MEvent) :=
  [.called 0 1 (.qCreate [97] ⟨none, none⟩) (some (0, 1)), .executed 0 ⟨1, 16, 1, [0, 0, 0, 1, 97, 0, 0, 0, 2, 123, 125]⟩ 1 (some .ok), .settled 0 1 (.answer 0 []),
   .called 0 2 (.qPush [97] ⟨none⟩ [0, 7]) (some (0, 2)), .executed 0 ⟨1, 17, 2, [0, 0, 0, 1, 97, 0, 0, 0, 2, 123, 125, 0, 7]⟩ 2 (some .ok), .settled 0 2 (.answer 0 []),
   .called 0 3 (.qConsume [97] ⟨none, none⟩) (some (0, 3)), .executed 0 ⟨1, 18, 3, [0, 0, 0, 1, 97, 0, 0, 0, 2, 123, 125]⟩ 3 (some (.data (exBatch [(0, [0, 7])]))),
   .settled 0 3 (.answer 3 (exBatch [(0, [0, 7])])), .ticked (.commit [97] 100),
   .called 0 4 (.qAck (uuidBytes 0) [97]) (some (0, 4)), .executed 0 ⟨1, 19, 4, uuidBytes 0 ++ [0, 0, 0, 1, 97]⟩ 4 (some .ok), .settled 0 4 (.answer 0 []),
   .ticked (.restart 200),
   .called 0 5 (.qConsume [97] ⟨none, none⟩) (some (1, 5)), .executed 1 ⟨1, 18, 5, [0, 0, 0, 1, 97, 0, 0, 0, 2, 123, 125]⟩ 201 (some (.data (exBatch [(0, [0, 7])]))),
   .settled 0 5 (.answer 3 (exBatch [(0, [0, 7])]))]

set_option maxRecDepth 100000 in
theorem exLostAckRun : ((World.init {}).run exPrinter exCrashServer exLostAck).2 = exLostAckTrace := by decide +kernel

/-- **C112 is violated** without the hypothesis that the message was written: a push that was answered `ok` is lost, and an ack that was
answered `ok` is undone.  (The writer collects operations and commits later; the answer does not wait for it.) -/
theorem C112_violated :
    (acts ((World.init {}).run exPrinter exCrashServer exLostPush).2 =
      [.did 0 (.qCreate [97] ⟨none, none⟩) 1 (some .ok), .did 0 (.qPush [97] ⟨none⟩ [0, 7]) 2 (some .ok), .ticked (.restart 3),
       .did 1 (.qConsume [97] ⟨none, none⟩) 4 (some (.data (exBatch [])))] ∧ handed (some (.data (exBatch []))) = []) ∧
    (acts ((World.init {}).run exPrinter exCrashServer exLostAck).2 =
      [.did 0 (.qCreate [97] ⟨none, none⟩) 1 (some .ok), .did 0 (.qPush [97] ⟨none⟩ [0, 7]) 2 (some .ok),
       .did 0 (.qConsume [97] ⟨none, none⟩) 3 (some (.data (exBatch [(0, [0, 7])]))), .ticked (.commit [97] 100), .did 0 (.qAck (uuidBytes 0) [97]) 4 (some .ok),
       .ticked (.restart 200), .did 1 (.qConsume [97] ⟨none, none⟩) 201 (some (.data (exBatch [(0, [0, 7])])))] ∧
      handedIds (some (.data (exBatch [(0, [0, 7])]))) = [uuidBytes 0]) := by
  refine ⟨⟨?_, by decide⟩, ?_, by decide⟩
  · rw [exLostPushRun]; rfl
  · rw [exLostAckRun]; rfl

end Verif.Rpc
