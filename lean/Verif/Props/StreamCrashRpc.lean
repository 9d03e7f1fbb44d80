import Verif.Proofs.StreamStorm4
import Verif.Props.StreamRpc
import Verif.Props.QueueCrashRpc

/-!
# C117: the streams across crashes, as an application behind the network sees them

The English statement is in `/verif/properties.jsonl`.  The server of these theorems (`StreamHost`) may crash at any moment and start
again from the files of its topics.
-/

namespace Verif.Rpc

open Verif Verif.Wire Verif.Sdk

variable {E I : Type}

/-- The streams in the engine after a run. -/
theorem streams_after (pr : Printer) {srv : Server E I} {env : Env} {lossy : Bytes → Str} {part : E → Streams} {bg : I → Option Job}
    (hp : StreamHost srv env lossy part bg) {e0 : E} (h0 : part e0 = {}) (es : List (Ev I)) (ho : Ordinary pr srv ((World.init e0).run pr srv es).2) :
    part ((World.init e0).run pr srv es).1.engine = Streams.lived env lossy bg (acts ((World.init e0).run pr srv es).2) := by
  rw [(holds_run pr srv e0 es ho).2.engine, lived_state hp h0]

/-- The same in the middle of a run. -/
theorem streams_at (pr : Printer) {srv : Server E I} {env : Env} {lossy : Bytes → Str} {part : E → Streams} {bg : I → Option Job}
    (hp : StreamHost srv env lossy part bg) {e0 : E} (h0 : part e0 = {}) (es₁ es₂ : List (Ev I))
    (ho : Ordinary pr srv ((World.init e0).run pr srv (es₁ ++ es₂)).2) {A : List (Act I)} (hA : acts ((World.init e0).run pr srv es₁).2 = A) :
    part ((World.init e0).run pr srv es₁).1.engine = Streams.lived env lossy bg A := by
  rw [run_split] at ho
  rw [streams_after pr hp h0 es₁ ho.left, hA]

/-! ## C117 -/

/-- **C117** (partial: the run is `Calm`).  Whatever crashes: every message that a `fetch` hands out has the number, the timestamp and the payload
of a `publish` on that topic that was answered with that number; it is the last one answered so (after a crash a number may be given
again), and since then the topic was not deleted. -/
theorem C117_faithful_partial (pr : Printer) (srv : Server E I) {env : Env} {lossy : Bytes → Str} {part : E → Streams} {bg : I → Option Job}
    (hp : StreamHost srv env lossy part bg) (e0 : E) (h0 : part e0 = {}) (es : List (Ev I)) {tr : List (Obs I)}
    (htr : tr = ((World.init e0).run pr srv es).2) (ho : Ordinary pr srv tr) (hk : env.Ok (acts tr)) (hsm : Small (acts tr)) (hc : Calm env lossy bg (acts tr))
    {u z : List (Act I)} {n g c : Str} {l gen lim w now : Nat} {r : Option Response} (hs : acts tr = u ++ .did l (.sFetch n g c gen lim w) now r :: z)
    {s ts : Nat} {pl : Bytes} (hm : (s, ts, pl) ∈ fetchedMsgs r) :
    ∃ x l' y, u = x ++ .did l' (.sPub n pl) ts (some (.data (wireSeq s))) :: y ∧ ∀ a ∈ y, ¬ dropsTopic n a ∧ ¬ numbered n s a := by
  subst htr
  exact (weathered pr hp h0 es ho hk hsm hc).faithful hs hm

/-- **C117** (partial: likewise).  No message is lost in a crash once it is in the files: a `publish` was answered with a number, later (`es₁`)
the message was in the files, and the topic was not deleted; then, after a crash, however many came before, it can be read, unless
retention has removed it. -/
theorem C117_durable_partial (pr : Printer) (srv : Server E I) {env : Env} {lossy : Bytes → Str} {part : E → Streams} {bg : I → Option Job}
    (hp : StreamHost srv env lossy part bg) (e0 : E) (h0 : part e0 = {}) (es₁ es₂ : List (Ev I)) {tr : List (Obs I)}
    (htr : tr = ((World.init e0).run pr srv (es₁ ++ es₂)).2) (ho : Ordinary pr srv tr) (hk : env.Ok (acts tr)) (hsm : Small (acts tr))
    (hc : Calm env lossy bg (acts tr)) {x y z : List (Act I)} {l s ts : Nat} {n : Str} {pl : Bytes} {a : Act I}
    (h₁ : acts ((World.init e0).run pr srv es₁).2 = x ++ .did l (.sPub n pl) ts (some (.data (wireSeq s))) :: y)
    (hf : Flushed (part ((World.init e0).run pr srv es₁).1.engine) n s)
    (hs : acts tr = (x ++ .did l (.sPub n pl) ts (some (.data (wireSeq s))) :: y) ++ z ++ [a])
    (hy : ∀ b ∈ y, ¬ dropsTopic n b ∧ ¬ numbered n s b) (hz : ∀ b ∈ z, ¬ dropsTopic n b) (ha : breaks bg a) :
    ∃ t, mget (part ((World.init e0).run pr srv (es₁ ++ es₂)).1.engine).topics n = some t ∧ (Stream.Readable env.crc t ⟨s, ts, pl⟩ ∨ s < t.log.head) := by
  subst htr
  rw [streams_after pr hp h0 _ ho, hs]
  rw [streams_at pr hp h0 es₁ es₂ ho h₁] at hf
  exact (weathered pr hp h0 _ ho hk hsm hc).durable hs hy hz ha hf

/-- **C117** (partial: likewise, and the name is a file name under which no other directory lies).  Crashes neither make nor remove topics: `exists` says `ok` exactly if the topic was created and not deleted
since. -/
theorem C117_exists_partial (pr : Printer) (srv : Server E I) {env : Env} {lossy : Bytes → Str} {part : E → Streams} {bg : I → Option Job}
    (hp : StreamHost srv env lossy part bg) (e0 : E) (h0 : part e0 = {}) (es : List (Ev I)) {tr : List (Obs I)}
    (htr : tr = ((World.init e0).run pr srv es).2) (ho : Ordinary pr srv tr) (hk : env.Ok (acts tr)) (hsm : Small (acts tr)) (hc : Calm env lossy bg (acts tr))
    (htd : env.Tidy) {u z : List (Act I)} {n : Str} (hn : Paths.Simple n) {l now : Nat} {r : Option Response}
    (hs : acts tr = u ++ .did l (.sExists n) now r :: z) : r = some .ok ↔ Made n u := by
  subst htr
  rw [((weathered pr hp h0 es ho hk hsm hc).exec _ _ _ _ _ _ hs rfl).1, ← made_iff (env := env) (lossy := lossy) (bg := bg) (fun l o now r hm => hc.names l n o now r (by rw [hs]; simp [hm]))]
  simp only [streamExec, mhas, htd _ n hn, Bool.or_false]
  by_cases h : (mget (Streams.lived env lossy bg u).topics n).isSome = true <;> simp [h]

/-- **C117** (partial: likewise).  Crashes make no gaps: if the topic is new after `x` and the group was not sought since, then a message is handed
out to the group only if every number before it has been, or is in the same answer, or retention has removed it. -/
theorem C117_no_gap_partial (pr : Printer) (srv : Server E I) {env : Env} {lossy : Bytes → Str} {part : E → Streams} {bg : I → Option Job}
    (hp : StreamHost srv env lossy part bg) (e0 : E) (h0 : part e0 = {}) (es : List (Ev I)) {tr : List (Obs I)}
    (htr : tr = ((World.init e0).run pr srv es).2) (ho : Ordinary pr srv tr) (hk : env.Ok (acts tr)) (hsm : Small (acts tr)) (hc : Calm env lossy bg (acts tr))
    {x y z : List (Act I)} {n g c : Str} {l gen lim w now : Nat} {r : Option Response}
    (hs : acts tr = x ++ y ++ .did l (.sFetch n g c gen lim w) now r :: z) {s s' : Nat} (hm : s ∈ fetchedSeqs r) (hlt : s' < s) (h1 : 1 ≤ s')
    (hx : Anew n x) (hv : ∀ a ∈ y, ¬ seeks n g a) :
    (∃ a ∈ y ++ [.did l (.sFetch n g c gen lim w) now r], givesOut n g s' a) ∨
      s' < oldest (Streams.lived env lossy bg (x ++ y ++ [.did l (.sFetch n g c gen lim w) now r])) n := by
  subst htr
  exact (weathered pr hp h0 es ho hk hsm hc).no_gap hs hm hlt h1 hx hv

/-- **C117** (partial: likewise).  A crash does not undo acknowledgements once they are in the files: the topic is new after `x`, at some moment
(`es₁`) the progress file counts everything up to message `s` as done, and the group was not sought since the topic is new; then none of
these messages is handed out to the group any more, whatever crashes. -/
theorem C117_ack_final_partial (pr : Printer) (srv : Server E I) {env : Env} {lossy : Bytes → Str} {part : E → Streams} {bg : I → Option Job}
    (hp : StreamHost srv env lossy part bg) (e0 : E) (h0 : part e0 = {}) (es₁ es₂ : List (Ev I)) {tr : List (Obs I)}
    (htr : tr = ((World.init e0).run pr srv (es₁ ++ es₂)).2) (ho : Ordinary pr srv tr) (hk : env.Ok (acts tr)) (hsm : Small (acts tr))
    (hc : Calm env lossy bg (acts tr)) {x y y' z : List (Act I)} {n g c : Str} {l gen lim w now s s' : Nat} {r : Option Response}
    (h₁ : acts ((World.init e0).run pr srv es₁).2 = x ++ y) (hf : Preserved env.crc lossy (part ((World.init e0).run pr srv es₁).1.engine) n g s)
    (hs : acts tr = x ++ y ++ y' ++ .did l (.sFetch n g c gen lim w) now r :: z) (hx : Anew n x) (hv : ∀ a ∈ y ++ y', ¬ seeks n g a)
    (hd : ∀ a ∈ y', ¬ dropsTopic n a) (hle : s' ≤ s) : s' ∉ fetchedSeqs r := by
  subst htr
  rw [streams_at pr hp h0 es₁ es₂ ho h₁] at hf
  exact (weathered pr hp h0 _ ho hk hsm hc).ack_final hs hx hv hd hf hle

/-- **C117 is violated** by topics with a `/` in their names, always: whatever the server had, after a crash there is no such topic. -/
theorem C117_nested_violated (env : Env) (lossy : Bytes → Str) (s : Streams) {n : Str} (hn : Paths.slash ∈ n) (l now : Nat) (pl : Bytes) :
    (streamExec env l now (.sPub n pl) (s.crash env.crc lossy)).2 = some (.error (ascii "Topic not found")) := by
  have h : isEntry n = false := by
    have : n.contains 47 = true := List.contains_iff_mem.2 hn
    simp only [isEntry, this, Bool.not_true, Bool.false_and]
  simp only [streamExec, onTopic, crash_topics, h, Bool.false_eq_true, if_false]

/-- There are such topics: this one is there before the crash, and takes messages. -/
example : (streamExec exStreamEnv 0 2 (.sPub [97, 47, 98] [0, 7]) (streamExec exStreamEnv 0 1 (.sCreate [97, 47, 98] ⟨none⟩) {}).1).2 =
    some (.data (wireSeq 1)) ∧ Paths.slash ∈ ([97, 47, 98] : Str) := by decide +kernel

/-! ## A concrete server -/

/-- The background of a server with nothing but streams, for topic `s`: a publisher hands over its message, the storage task takes a
command, the storage task flushes, the groups task saves, the server crashes. -/
def exJob : Nat × Nat → Option Job
  | (0, _) => some (.on [115] (.send 0))
  | (1, t) => some (.on [115] (.storage t))
  | (2, t) => some (.on [115] (.flush t))
  | (3, _) => some (.on [115] (.save id))
  | (4, _) => some .crash
  | _ => none

def exStormServer : Server Streams (Nat × Nat) where
  max := 1000
  sd := exSerde
  exec := fun l now cmd e => streamExec exStreamEnv l now cmd e
  tick := fun x e =>
    match exJob x with
    | some (.on n ev) => e.background exStreamEnv.crc n ev
    | some .crash => e.crash exStreamEnv.crc id
    | none => e

theorem exStormHost : StreamHost exStormServer exStreamEnv id (fun e => e) exJob := by
  refine ⟨fun l now cmd e _ => rfl, ?_, fun x e => rfl, ?_⟩
  · intro l now cmd e hs
    cases cmd <;> first | rfl | cases hs
  · rintro ⟨k, t⟩ n ev h
    match k, h with
    | 0, h => injection h with h; injection h with _ h; subst h; rfl
    | 1, h => injection h with h; injection h with _ h; subst h; rfl
    | 2, h => injection h with h; injection h with _ h; subst h; rfl
    | 3, h => injection h with h; injection h with _ h; subst h; rfl
    | 4, h => injection h with h; cases h
    | k + 5, h => cases h

/-- The client calls, over connection `l`, and gets its answer. -/
def exSay (l tag now : Nat) (cmd : Cmd) : List (Ev (Nat × Nat)) :=
  [.call 0 tag 5000 0 cmd, .toServer l 100, .server l now .spawn, .server l now (.complete 0), .server l now (.post 0), .server l now .write, .toClient l 100]

def exSayObs (l tag now : Nat) (cmd : Cmd) (op : UInt8) (body : Bytes) (r : Response) : List (Obs (Nat × Nat)) :=
  [.called 0 tag cmd (some (l, tag)), .executed l ⟨1, op, tag, body⟩ now (some r), .settled 0 tag (.answer (shows r).1 (shows r).2)]

/-- The server crashes and starts again, and the client reconnects. -/
def exFall (l now : Nat) : List (Ev (Nat × Nat)) := [.tick (4, now), .drop l, .lib 0 .lost, .lib 0 .timer, .lib 0 .opened]

/-- A client creates a topic, publishes two messages, gets and acknowledges them; the messages and the progress are written. -/
def exStorm1 : List (Ev (Nat × Nat)) :=
  [.lib 0 .connect, .lib 0 .opened] ++ exSay 0 1 1 (.sCreate [115] ⟨none⟩) ++ exSay 0 2 2 (.sPub [115] [0, 7]) ++ exSay 0 3 3 (.sPub [115] [0, 8]) ++
  exSay 0 4 4 (.sJoin [103] [115]) ++ exSay 0 5 5 (.sFetch [115] [103] [97, 97, 97] 1 10 0) ++
  exSay 0 6 6 (.sAck [115] [103] [97, 97, 97] 1 1) ++ exSay 0 7 7 (.sAck [115] [103] [97, 97, 97] 1 2) ++
  [.tick (0, 8), .tick (0, 8), .tick (1, 8), .tick (1, 8), .tick (2, 8), .tick (3, 8), .tick (1, 8)]

/-- The server crashes twice. -/
def exStorm2 : List (Ev (Nat × Nat)) := exFall 0 9 ++ exFall 1 10

/-- The client publishes another message, joins the group again, and gets it. -/
def exStorm3 : List (Ev (Nat × Nat)) :=
  exSay 2 8 11 (.sPub [115] [0, 9]) ++ exSay 2 9 12 (.sJoin [103] [115]) ++
  exSay 2 10 13 (.sFetch [115] [103] [97, 97, 97, 97, 97, 97, 97, 97] 1 10 0) ++ exSay 2 11 14 (.sExists [115])

def exFetch₃ : Bytes := wireFetch [⟨3, 11, [0, 9]⟩]

def exStormTrace : List (Obs (Nat × Nat)) :=
  exSayObs 0 1 1 (.sCreate [115] ⟨none⟩) 48 [0, 0, 0, 1, 115, 0, 0, 0, 2, 123, 125] .ok
  ++ exSayObs 0 2 2 (.sPub [115] [0, 7]) 49 [0, 0, 0, 1, 115, 0, 7] (.data (wireSeq 1))
  ++ exSayObs 0 3 3 (.sPub [115] [0, 8]) 49 [0, 0, 0, 1, 115, 0, 8] (.data (wireSeq 2))
  ++ exSayObs 0 4 4 (.sJoin [103] [115]) 51 [0, 0, 0, 1, 103, 0, 0, 0, 1, 115] (.data (wireJoin 0 1 [97, 97, 97]))
  ++ exSayObs 0 5 5 (.sFetch [115] [103] [97, 97, 97] 1 10 0) 50
      [0, 0, 0, 1, 115, 0, 0, 0, 1, 103, 0, 0, 0, 3, 97, 97, 97, 0, 0, 0, 0, 0, 0, 0, 1, 0, 0, 0, 10, 0, 0, 0, 0] (.data exFetch₁)
  ++ exSayObs 0 6 6 (.sAck [115] [103] [97, 97, 97] 1 1) 52
      [0, 0, 0, 1, 115, 0, 0, 0, 1, 103, 0, 0, 0, 3, 97, 97, 97, 0, 0, 0, 0, 0, 0, 0, 1, 0, 0, 0, 0, 0, 0, 0, 1] .ok
  ++ exSayObs 0 7 7 (.sAck [115] [103] [97, 97, 97] 1 2) 52
      [0, 0, 0, 1, 115, 0, 0, 0, 1, 103, 0, 0, 0, 3, 97, 97, 97, 0, 0, 0, 0, 0, 0, 0, 1, 0, 0, 0, 0, 0, 0, 0, 2] .ok
  ++ [.ticked (0, 8), .ticked (0, 8), .ticked (1, 8), .ticked (1, 8), .ticked (2, 8), .ticked (3, 8), .ticked (1, 8), .ticked (4, 9), .ticked (4, 10)]
  ++ exSayObs 2 8 11 (.sPub [115] [0, 9]) 49 [0, 0, 0, 1, 115, 0, 9] (.data (wireSeq 3))
  ++ exSayObs 2 9 12 (.sJoin [103] [115]) 51 [0, 0, 0, 1, 103, 0, 0, 0, 1, 115] (.data (wireJoin 2 1 [97, 97, 97, 97, 97, 97, 97, 97]))
  ++ exSayObs 2 10 13 (.sFetch [115] [103] [97, 97, 97, 97, 97, 97, 97, 97] 1 10 0) 50
      [0, 0, 0, 1, 115, 0, 0, 0, 1, 103, 0, 0, 0, 8, 97, 97, 97, 97, 97, 97, 97, 97, 0, 0, 0, 0, 0, 0, 0, 1, 0, 0, 0, 10, 0, 0, 0, 0] (.data exFetch₃)
  ++ exSayObs 2 11 14 (.sExists [115]) 53 [0, 0, 0, 1, 115] .ok

set_option maxRecDepth 100000 in
theorem exStormRun : ((World.init {}).run exPrinter exStormServer (exStorm1 ++ (exStorm2 ++ exStorm3))).2 = exStormTrace := by decide +kernel

set_option maxRecDepth 100000 in
theorem exStormRun1 : ((World.init {}).run exPrinter exStormServer exStorm1).2 = exStormTrace.take 28 := by decide +kernel

set_option maxRecDepth 100000 in
theorem exStormRun2 : ((World.init {}).run exPrinter exStormServer (exStorm1 ++ exStorm2)).2 = exStormTrace.take 30 := by decide +kernel

/-- The commands of the example. -/
theorem exStorm_cmd {cmd : Cmd} (h : cmd = .sCreate [115] ⟨none⟩ ∨ cmd = .sPub [115] [0, 7] ∨ cmd = .sPub [115] [0, 8] ∨ cmd = .sPub [115] [0, 9] ∨
    cmd = .sJoin [103] [115] ∨ cmd = .sFetch [115] [103] [97, 97, 97] 1 10 0 ∨ cmd = .sFetch [115] [103] [97, 97, 97, 97, 97, 97, 97, 97] 1 10 0 ∨
    cmd = .sAck [115] [103] [97, 97, 97] 1 1 ∨ cmd = .sAck [115] [103] [97, 97, 97] 1 2 ∨ cmd = .sExists [115]) :
    cmd.Fits ∧ cmd.Json exStormServer.sd exPrinter ∧ ∀ op body, tsBody exPrinter cmd = some (op, body) → body.length < 2 ^ 32 := by
  rcases h with rfl | rfl | rfl | rfl | rfl | rfl | rfl | rfl | rfl | rfl
  · refine ⟨show StrOk [115] by decide, ⟨by decide, by decide⟩, ?_⟩
    intro op body hb
    injection hb with hb; injection hb with h1 h2; subst h2; decide
  · refine ⟨show StrOk [115] by decide, trivial, ?_⟩
    intro op body hb
    injection hb with hb; injection hb with h1 h2; subst h2; decide
  · refine ⟨show StrOk [115] by decide, trivial, ?_⟩
    intro op body hb
    injection hb with hb; injection hb with h1 h2; subst h2; decide
  · refine ⟨show StrOk [115] by decide, trivial, ?_⟩
    intro op body hb
    injection hb with hb; injection hb with h1 h2; subst h2; decide
  · refine ⟨⟨by decide, by decide⟩, trivial, ?_⟩
    intro op body hb
    injection hb with hb; injection hb with h1 h2; subst h2; decide
  · refine ⟨⟨by decide, by decide, by decide, by decide, by decide, by decide⟩, trivial, ?_⟩
    intro op body hb
    injection hb with hb; injection hb with h1 h2; subst h2; decide
  · refine ⟨⟨by decide, by decide, by decide, by decide, by decide, by decide⟩, trivial, ?_⟩
    intro op body hb
    injection hb with hb; injection hb with h1 h2; subst h2; decide
  · refine ⟨⟨by decide, by decide, by decide, by decide, by decide⟩, trivial, ?_⟩
    intro op body hb
    injection hb with hb; injection hb with h1 h2; subst h2; decide
  · refine ⟨⟨by decide, by decide, by decide, by decide, by decide⟩, trivial, ?_⟩
    intro op body hb
    injection hb with hb; injection hb with h1 h2; subst h2; decide
  · refine ⟨show StrOk [115] by decide, trivial, ?_⟩
    intro op body hb
    injection hb with hb; injection hb with h1 h2; subst h2; decide

theorem exStormOrdinary : Ordinary exPrinter exStormServer exStormTrace := by
  refine ⟨?_, ?_, ?_, fun p => countP_le _ _ _ (by decide)⟩
  · intro o ho cmd hc
    apply exStorm_cmd
    have : cmd ∈ exStormTrace.filterMap Obs.cmd? := List.mem_filterMap.2 ⟨o, ho, hc⟩
    simp only [exStormTrace, exSayObs, List.cons_append, List.nil_append, Obs.cmd?, List.filterMap, List.mem_cons, List.not_mem_nil, or_false] at this
    rcases this with h | h | h | h | h | h | h | h | h | h | h <;> simp [h]
  · intro l f now r hm
    simp only [exStormTrace, exSayObs, List.mem_append, List.mem_cons, List.not_mem_nil, or_false, or_assoc, reduceCtorEq, false_or, Obs.executed.injEq,
      Option.some.injEq] at hm
    rcases hm with ⟨rfl, rfl, rfl, rfl⟩ | ⟨rfl, rfl, rfl, rfl⟩ | ⟨rfl, rfl, rfl, rfl⟩ | ⟨rfl, rfl, rfl, rfl⟩ | ⟨rfl, rfl, rfl, rfl⟩ | ⟨rfl, rfl, rfl, rfl⟩ |
      ⟨rfl, rfl, rfl, rfl⟩ | ⟨rfl, rfl, rfl, rfl⟩ | ⟨rfl, rfl, rfl, rfl⟩ | ⟨rfl, rfl, rfl, rfl⟩ | ⟨rfl, rfl, rfl, rfl⟩ <;> decide
  · intro l p hm
    simp [exStormTrace, exSayObs] at hm

/-- What the server did in it. -/
def exStormActs : List (Act (Nat × Nat)) :=
  [.did 0 (.sCreate [115] ⟨none⟩) 1 (some .ok), .did 0 (.sPub [115] [0, 7]) 2 (some (.data (wireSeq 1))), .did 0 (.sPub [115] [0, 8]) 3 (some (.data (wireSeq 2))),
   .did 0 (.sJoin [103] [115]) 4 (some (.data (wireJoin 0 1 [97, 97, 97]))), .did 0 (.sFetch [115] [103] [97, 97, 97] 1 10 0) 5 (some (.data exFetch₁)),
   .did 0 (.sAck [115] [103] [97, 97, 97] 1 1) 6 (some .ok), .did 0 (.sAck [115] [103] [97, 97, 97] 1 2) 7 (some .ok),
   .ticked (0, 8), .ticked (0, 8), .ticked (1, 8), .ticked (1, 8), .ticked (2, 8), .ticked (3, 8), .ticked (1, 8), .ticked (4, 9), .ticked (4, 10),
   .did 2 (.sPub [115] [0, 9]) 11 (some (.data (wireSeq 3))), .did 2 (.sJoin [103] [115]) 12 (some (.data (wireJoin 2 1 [97, 97, 97, 97, 97, 97, 97, 97]))),
   .did 2 (.sFetch [115] [103] [97, 97, 97, 97, 97, 97, 97, 97] 1 10 0) 13 (some (.data exFetch₃)), .did 2 (.sExists [115]) 14 (some .ok)]

set_option maxRecDepth 100000 in
theorem exStorm_acts : acts exStormTrace = exStormActs := rfl

theorem exStorm_ok : exStreamEnv.Ok exStormActs := by
  refine ⟨fun i j _ _ h => ?_, by decide⟩
  have := congrArg List.length h
  simpa [exStreamEnv] using this

theorem exStorm_small : Small exStormActs := by
  refine ⟨?_, by decide⟩
  intro l n pl now r hm
  simp only [exStormActs, List.mem_cons, List.not_mem_nil, or_false, reduceCtorEq, false_or, Act.did.injEq, Cmd.sPub.injEq, false_and, and_false] at hm
  rcases hm with ⟨_, ⟨_, rfl⟩, rfl, _⟩ | ⟨_, ⟨_, rfl⟩, rfl, _⟩ | ⟨_, ⟨_, rfl⟩, rfl, _⟩ <;> exact ⟨by decide, by decide⟩

/-- A crash that finds this in the files. -/
theorem clean_of {s : Streams} {n : Str} {t : Stream.Topic} {ms : List Stream.Msg} (h : mget s.topics n = some t)
    (hd : s.topics.all (fun e => decide (e.2.disk.segs.map (·.data) = [Stream.records exStreamEnv.crc ms])) = true) (hne : ms ≠ [])
    (hf : ∀ m ∈ ms, Stream.Fits m) : Stream.CleanStop exStreamEnv.crc t.disk := by
  intro sg hs
  have h1 := of_decide_eq_true (List.all_eq_true.1 hd _ (mget_some_mem h))
  have h2 : sg.data ∈ t.disk.segs.map (·.data) := List.mem_map.2 ⟨sg, List.mem_of_getLast? hs, rfl⟩
  rw [h1] at h2
  exact ⟨ms, hne, hf, by simpa using h2⟩

theorem exStorm_fits : ∀ m ∈ ([⟨1, 2, [0, 7]⟩, ⟨2, 3, [0, 8]⟩] : List Stream.Msg), Stream.Fits m := by
  intro m hm
  simp only [List.mem_cons, List.not_mem_nil, or_false] at hm
  rcases hm with rfl | rfl <;> exact ⟨by decide, by decide, by decide⟩

set_option maxRecDepth 100000 in
theorem exStorm_calm : Calm exStreamEnv id exJob exStormActs := by
  refine ⟨?_, ?_, ?_, ?_, ?_, ?_⟩
  · rintro ⟨k, t⟩ n i _ h
    match k, h with
    | 0, h => injection h with h; injection h with _ h; injection h with h; exact h.symm
    | 1, h => injection h with h; injection h with _ h; cases h
    | 2, h => injection h with h; injection h with _ h; cases h
    | 3, h => injection h with h; injection h with _ h; cases h
    | 4, h => injection h with h; cases h
    | k + 5, h => cases h
  · have key : ∀ k, k < 20 → clockOf exJob (exStormActs.take k) ≤ ((exStormActs[k]?).bind (actTime exJob)).getD (clockOf exJob (exStormActs.take k)) := by decide
    intro u a w h
    have hl : u.length < 20 := by
      have := congrArg List.length h
      simp [exStormActs] at this
      omega
    have := key u.length hl
    rw [h] at this
    simpa using this
  · intro l n o now r hm
    simp only [exStormActs, List.mem_cons, List.not_mem_nil, or_false, reduceCtorEq, false_or, Act.did.injEq, Cmd.sCreate.injEq, false_and, and_false] at hm
    rw [hm.2.1.1]; decide
  · intro l g n now r hm
    simp only [exStormActs, List.mem_cons, List.not_mem_nil, or_false, reduceCtorEq, false_or, Act.did.injEq, Cmd.sJoin.injEq, false_and, and_false] at hm
    rcases hm with ⟨_, ⟨rfl, _⟩, _⟩ | ⟨_, ⟨rfl, _⟩, _⟩ <;> exact ⟨by decide, rfl⟩
  · intro l n g b now r hm
    simp [exStormActs] at hm
  · intro u a w h hb n t ht
    have hl : u.length < 20 := by
      have := congrArg List.length h
      simp [exStormActs] at this
      omega
    have hu : u = exStormActs.take u.length := by rw [h]; simp
    have ha : exStormActs[u.length]? = some a := by rw [h]; simp
    have hk : ∀ k, k < 20 → (match exStormActs[k]? with | some (.ticked (4, _)) => true | _ => false) = true → k = 14 ∨ k = 15 := by decide
    have : u.length = 14 ∨ u.length = 15 := by
      apply hk _ hl
      rw [ha]
      obtain ⟨⟨k, t'⟩, rfl, hx⟩ := hb
      match k, hx with
      | 0, h => cases h
      | 1, h => cases h
      | 2, h => cases h
      | 3, h => cases h
      | 4, h => rfl
      | k + 5, h => cases h
    rcases this with h14 | h14 <;> rw [h14] at hu <;> rw [hu] at ht
    · exact clean_of (ms := [⟨1, 2, [0, 7]⟩, ⟨2, 3, [0, 8]⟩]) ht (by decide +kernel) (by simp) exStorm_fits
    · exact clean_of (ms := [⟨1, 2, [0, 7]⟩, ⟨2, 3, [0, 8]⟩]) ht (by decide +kernel) (by simp) exStorm_fits

theorem exStorm_noseek (v : List (Act (Nat × Nat))) (h : v.all (fun a => match a with | .did _ (.sSeek ..) _ _ => false | _ => true) = true) :
    ∀ a ∈ v, ¬ seeks [115] [103] a := by
  rintro a ha ⟨_, _, _, _, rfl⟩
  have := List.all_eq_true.1 h _ ha
  simp at this

theorem exStorm_nodrop (v : List (Act (Nat × Nat))) (h : v.all (fun a => match a with | .did _ (.sDelete ..) _ _ => false | _ => true) = true) :
    ∀ a ∈ v, ¬ dropsTopic [115] a := by
  rintro a ha ⟨_, _, _, rfl⟩
  have := List.all_eq_true.1 h _ ha
  simp at this

/-- The hypotheses of the theorems above are met.  `C117_faithful_partial`: the message handed out after the crashes. -/
example : ∃ x l' y, exStormActs.take 18 = x ++ .did l' (.sPub [115] [0, 9]) 11 (some (.data (wireSeq 3))) :: y ∧
    ∀ a ∈ y, ¬ dropsTopic [115] a ∧ ¬ numbered [115] 3 a :=
  C117_faithful_partial exPrinter exStormServer exStormHost {} rfl _ exStormRun.symm exStormOrdinary exStorm_ok exStorm_small exStorm_calm
    (u := exStormActs.take 18) (z := exStormActs.drop 19) (n := [115]) (g := [103]) (c := [97, 97, 97, 97, 97, 97, 97, 97]) (l := 2) (gen := 1) (lim := 10) (w := 0)
    (now := 13) rfl (by decide)

/-- `C117_exists_partial`: the topic is there after the crashes. -/
example : Made [115] (exStormActs.take 19) :=
  (C117_exists_partial exPrinter exStormServer exStormHost {} rfl _ exStormRun.symm exStormOrdinary exStorm_ok exStorm_small exStorm_calm
    (fun _ _ _ => rfl) (u := exStormActs.take 19) (z := []) (n := [115]) (by decide) (l := 2) (now := 14) rfl).1 rfl

/-- `C117_no_gap_partial`: message 3 was handed out, so message 2 has been, before the crashes. -/
example : (∃ a ∈ exStormActs.take 18 ++ [.did 2 (.sFetch [115] [103] [97, 97, 97, 97, 97, 97, 97, 97] 1 10 0) 13 (some (.data exFetch₃))], givesOut [115] [103] 2 a) ∨
    2 < oldest (Streams.lived exStreamEnv id exJob ([] ++ exStormActs.take 18 ++
      [.did 2 (.sFetch [115] [103] [97, 97, 97, 97, 97, 97, 97, 97] 1 10 0) 13 (some (.data exFetch₃))])) [115] :=
  C117_no_gap_partial exPrinter exStormServer exStormHost {} rfl _ exStormRun.symm exStormOrdinary exStorm_ok exStorm_small exStorm_calm
    (x := []) (y := exStormActs.take 18) (z := exStormActs.drop 19) (n := [115]) (g := [103]) (c := [97, 97, 97, 97, 97, 97, 97, 97]) (l := 2) (gen := 1) (lim := 10) (w := 0)
    (now := 13) rfl (s := 3) (s' := 2) (by decide) (by decide) (by decide) (.inl rfl) (exStorm_noseek _ (by decide))

set_option maxRecDepth 100000 in
/-- Nothing was removed. -/
example : oldest (Streams.lived exStreamEnv id exJob (exStormActs.take 19)) [115] = 1 := by decide +kernel

set_option maxRecDepth 100000 in
theorem exStorm_preserved : Preserved exStreamEnv.crc id ((World.init ({} : Streams)).run exPrinter exStormServer exStorm1).1.engine [115] [103] 2 := by
  have h : (match mget ((World.init ({} : Streams)).run exPrinter exStormServer exStorm1).1.engine.topics [115] with
    | some t => decide (t.chan = []) && (match t.disk.groups with | some b => decide (mget (Stream.loadGroups exStreamEnv.crc id b) [103] = some 2) | none => false)
    | none => false) = true := by decide +kernel
  unfold Preserved
  split at h
  · next t ht =>
    rw [Bool.and_eq_true] at h
    refine ⟨t, ht, ?_, ?_⟩
    · have h2 := h.2
      split at h2
      · next b hb => exact ⟨b, hb, 2, of_decide_eq_true h2, Nat.le_refl _⟩
      · cases h2
    · intro d hd
      rw [of_decide_eq_true h.1] at hd
      cases hd
  · cases h

/-- `C117_ack_final_partial`: two messages were acknowledged, and that was written before the crashes. -/
example : 2 ∉ fetchedSeqs (some (.data exFetch₃)) :=
  C117_ack_final_partial exPrinter exStormServer exStormHost {} rfl exStorm1 (exStorm2 ++ exStorm3) exStormRun.symm exStormOrdinary exStorm_ok exStorm_small exStorm_calm
    (x := []) (y := exStormActs.take 14) (y' := (exStormActs.take 18).drop 14) (z := exStormActs.drop 19) (n := [115]) (g := [103])
    (c := [97, 97, 97, 97, 97, 97, 97, 97]) (l := 2) (gen := 1) (lim := 10) (w := 0) (now := 13) (s := 2) (by rw [exStormRun1]; rfl) exStorm_preserved rfl (.inl rfl)
    (exStorm_noseek _ (by decide)) (exStorm_nodrop _ (by decide)) (Nat.le_refl _)

set_option maxRecDepth 100000 in
theorem exStorm_flushed : Flushed ((World.init ({} : Streams)).run exPrinter exStormServer exStorm1).1.engine [115] 2 := by
  have h : (match mget ((World.init ({} : Streams)).run exPrinter exStormServer exStorm1).1.engine.topics [115] with
    | some t => decide (2 ≤ t.persisted) | none => false) = true := by decide +kernel
  unfold Flushed
  split at h
  · next t ht => exact ⟨t, ht, of_decide_eq_true h⟩
  · cases h

/-- What the server did up to the second crash. -/
theorem exStorm_upto : acts ((World.init ({} : Streams)).run exPrinter exStormServer (exStorm1 ++ exStorm2)).2 = exStormActs.take 16 := by rw [exStormRun2]; rfl

theorem exStorm_split : Ordinary exPrinter exStormServer ((World.init ({} : Streams)).run exPrinter exStormServer (exStorm1 ++ exStorm2)).2 := by
  have h := exStormOrdinary
  rw [← exStormRun, ← List.append_assoc, run_split] at h
  exact h.left

/-- `C117_durable_partial`: the second message was in the files before the crashes, and can be read after them. -/
example : ∃ t, mget ((World.init ({} : Streams)).run exPrinter exStormServer (exStorm1 ++ exStorm2)).1.engine.topics [115] = some t ∧
    (Stream.Readable exStreamEnv.crc t ⟨2, 3, [0, 8]⟩ ∨ 2 < t.log.head) := by
  refine C117_durable_partial exPrinter exStormServer exStormHost {} rfl exStorm1 exStorm2 rfl exStorm_split ?_ ?_ ?_
    (x := exStormActs.take 2) (y := (exStormActs.take 14).drop 3) (z := [.ticked (4, 9)]) (a := .ticked (4, 10)) (l := 0) (s := 2) (ts := 3) (n := [115]) (pl := [0, 8])
    (by rw [exStormRun1]; rfl) exStorm_flushed (by rw [exStorm_upto]; rfl) ?_ (exStorm_nodrop _ (by decide)) ⟨_, rfl, rfl⟩
  · rw [exStorm_upto]
    exact ⟨fun i j hi hj => exStorm_ok.ids i j (Nat.lt_trans hi (by decide)) (Nat.lt_trans hj (by decide)), exStorm_ok.deliveries⟩
  · rw [exStorm_upto]
    exact ⟨fun l n pl now r hm => exStorm_small.payloads l n pl now r (List.mem_of_mem_take hm), by decide⟩
  · rw [exStorm_upto]
    have e : exStormActs = exStormActs.take 16 ++ exStormActs.drop 16 := rfl
    refine ⟨fun x n i hm => exStorm_calm.inOrder x n i (List.mem_of_mem_take hm), fun u a w h => exStorm_calm.clock u a (w ++ exStormActs.drop 16) ?_,
      fun l n o now r hm => exStorm_calm.names l n o now r (List.mem_of_mem_take hm), fun l g n now r hm => exStorm_calm.joins l g n now r (List.mem_of_mem_take hm), fun l n g b now r hm => exStorm_calm.sought l n g b now r (List.mem_of_mem_take hm),
      fun u a w h => exStorm_calm.clean u a (w ++ exStormActs.drop 16) ?_⟩
    · exact e.trans (by rw [h]; simp)
    · exact e.trans (by rw [h]; simp)
  · intro b hb
    refine ⟨exStorm_nodrop _ (by decide) b hb, ?_⟩
    rintro ⟨_, _, _, rfl⟩
    simp [exStormActs] at hb

/-! ### What is not written is lost -/

/-- A message is published, handed out and acknowledged, and the progress is written; the server crashes before the message is flushed; another
message is published, and the group fetches. -/
def exLostMsg : List (Ev (Nat × Nat)) :=
  [.lib 0 .connect, .lib 0 .opened] ++ exSay 0 1 1 (.sCreate [115] ⟨none⟩) ++ exSay 0 2 2 (.sPub [115] [0, 7]) ++
  exSay 0 3 3 (.sJoin [103] [115]) ++ exSay 0 4 4 (.sFetch [115] [103] [97, 97] 1 10 0) ++ exSay 0 5 5 (.sAck [115] [103] [97, 97] 1 1) ++
  [.tick (0, 8), .tick (1, 8), .tick (3, 8), .tick (1, 8)] ++ exFall 0 9 ++ exSay 1 6 11 (.sPub [115] [0, 9]) ++ exSay 1 7 12 (.sJoin [103] [115]) ++
  exSay 1 8 13 (.sFetch [115] [103] [97, 97, 97, 97, 97, 97] 1 10 0)

def exLostMsgTrace : List (Obs (Nat × Nat)) :=
  exSayObs 0 1 1 (.sCreate [115] ⟨none⟩) 48 [0, 0, 0, 1, 115, 0, 0, 0, 2, 123, 125] .ok
  ++ exSayObs 0 2 2 (.sPub [115] [0, 7]) 49 [0, 0, 0, 1, 115, 0, 7] (.data (wireSeq 1))
  ++ exSayObs 0 3 3 (.sJoin [103] [115]) 51 [0, 0, 0, 1, 103, 0, 0, 0, 1, 115] (.data (wireJoin 0 1 [97, 97]))
  ++ exSayObs 0 4 4 (.sFetch [115] [103] [97, 97] 1 10 0) 50
      [0, 0, 0, 1, 115, 0, 0, 0, 1, 103, 0, 0, 0, 2, 97, 97, 0, 0, 0, 0, 0, 0, 0, 1, 0, 0, 0, 10, 0, 0, 0, 0] (.data exFetch₂)
  ++ exSayObs 0 5 5 (.sAck [115] [103] [97, 97] 1 1) 52
      [0, 0, 0, 1, 115, 0, 0, 0, 1, 103, 0, 0, 0, 2, 97, 97, 0, 0, 0, 0, 0, 0, 0, 1, 0, 0, 0, 0, 0, 0, 0, 1] .ok
  ++ [.ticked (0, 8), .ticked (1, 8), .ticked (3, 8), .ticked (1, 8), .ticked (4, 9)]
  ++ exSayObs 1 6 11 (.sPub [115] [0, 9]) 49 [0, 0, 0, 1, 115, 0, 9] (.data (wireSeq 1))
  ++ exSayObs 1 7 12 (.sJoin [103] [115]) 51 [0, 0, 0, 1, 103, 0, 0, 0, 1, 115] (.data (wireJoin 1 1 [97, 97, 97, 97, 97, 97]))
  ++ exSayObs 1 8 13 (.sFetch [115] [103] [97, 97, 97, 97, 97, 97] 1 10 0) 50
      [0, 0, 0, 1, 115, 0, 0, 0, 1, 103, 0, 0, 0, 6, 97, 97, 97, 97, 97, 97, 0, 0, 0, 0, 0, 0, 0, 1, 0, 0, 0, 10, 0, 0, 0, 0] (.data (wireFetch []))

set_option maxRecDepth 100000 in
theorem exLostMsgRun : ((World.init {}).run exPrinter exStormServer exLostMsg).2 = exLostMsgTrace := by decide +kernel

set_option maxRecDepth 100000 in
/-- **C117 is violated** without the hypothesis that the message is in the files: a message whose publish was answered is lost, its number is
given to the next message, and the group, which had acknowledged the first one, is never handed the second.  (The answer to a publish
does not wait for the flush, and the progress of groups is written without it.) -/
theorem C117_violated :
    acts ((World.init {}).run exPrinter exStormServer exLostMsg).2 =
      [.did 0 (.sCreate [115] ⟨none⟩) 1 (some .ok), .did 0 (.sPub [115] [0, 7]) 2 (some (.data (wireSeq 1))),
       .did 0 (.sJoin [103] [115]) 3 (some (.data (wireJoin 0 1 [97, 97]))), .did 0 (.sFetch [115] [103] [97, 97] 1 10 0) 4 (some (.data exFetch₂)),
       .did 0 (.sAck [115] [103] [97, 97] 1 1) 5 (some .ok), .ticked (0, 8), .ticked (1, 8), .ticked (3, 8), .ticked (1, 8), .ticked (4, 9),
       .did 1 (.sPub [115] [0, 9]) 11 (some (.data (wireSeq 1))), .did 1 (.sJoin [103] [115]) 12 (some (.data (wireJoin 1 1 [97, 97, 97, 97, 97, 97]))),
       .did 1 (.sFetch [115] [103] [97, 97, 97, 97, 97, 97] 1 10 0) 13 (some (.data (wireFetch [])))] ∧
    exJob (4, 9) = some .crash ∧ fetchedMsgs (some (.data exFetch₂)) = [(1, 2, [0, 7])] ∧ fetchedMsgs (some (.data (wireFetch []))) = [] := by
  refine ⟨?_, rfl, by decide, by decide⟩
  rw [exLostMsgRun]; rfl

end Verif.Rpc
