import Verif.Spec.StreamRetain
import Verif.Proofs.StreamRpc4
import Verif.Props.StreamLog
import Verif.Props.StreamCrashRpc

/-!
# C124: the retention limits of a topic are those of its `create`
-/

namespace Verif.Rpc

open Verif Verif.Wire Verif.Sdk
open Verif.Stream (Topic Seg Retention retainSegs totalSize)

theorem exceeds_iff (server : Nat) (asked : Option Nat) (x : Nat) : Exceeds server asked x ↔ ∃ v, retentionLimit server asked = some v ∧ v < x := by
  cases asked with
  | none => simp [Exceeds, retentionLimit]
  | some v =>
    simp only [Exceeds, retentionLimit]
    by_cases h : v = 0 <;> simp [h]

theorem cfg_limits (sys : SysStream) (o : StreamOpts) :
    (topicCfg sys o).retention = ⟨retentionLimit sys.age (askedAge o), retentionLimit sys.bytes (askedBytes o)⟩ := by
  unfold topicCfg askedAge askedBytes
  cases o.retention with
  | none => rfl
  | some x => rfl

/-- A segment that is not the newest one. -/
theorem not_last {segs : List Seg} (hs : segs.Pairwise (fun x y => x.start < y.start)) {s : Seg} (h : s ∈ segs.dropLast) : segs.getLast? ≠ some s := by
  rcases Stream.snoc_cases segs with rfl | ⟨pre, l, rfl⟩
  · cases h
  · rw [List.dropLast_concat] at h
    rw [List.getLast?_concat]
    intro he
    injection he with he
    have := (List.pairwise_append.1 hs).2.2 s h l (List.mem_singleton.2 rfl)
    rw [he] at this
    omega

/-- What the age limit leaves. -/
theorem aged_keeps (age : Option Nat) (now : Nat) (segs : List Seg) (hs : segs.Pairwise (fun x y => x.start < y.start)) (s : Seg) :
    s ∈ retainSegs ⟨age, none⟩ now segs ↔ s ∈ segs ∧ (segs.getLast? = some s ∨ ∀ a, age = some a → now ≤ s.mtime + a) := by
  cases age with
  | none => rw [Stream.C41_no_limits]; simp
  | some a => rw [Stream.C41_age_exact a now segs hs s]; simp

theorem retain_respects (sys : SysStream) (o : StreamOpts) (now : Nat) (segs : List Seg) (hs : segs.Pairwise (fun x y => x.start < y.start))
    (hm : (topicCfg sys o).retention.maxAge = none ∨ segs.Pairwise (fun x y => x.mtime ≤ y.mtime)) :
    Respected sys o now segs (retainSegs (topicCfg sys o).retention now segs) := by
  have hr := cfg_limits sys o
  generalize (topicCfg sys o).retention = r at hr hm
  obtain ⟨age, bytes⟩ := r
  injection hr with h1 h2
  have e1 : ∀ x, Exceeds sys.age (askedAge o) x ↔ ∃ v, age = some v ∧ v < x := fun x => by rw [exceeds_iff, h1]
  have e2 : ∀ x, Exceeds sys.bytes (askedBytes o) x ↔ ∃ v, bytes = some v ∧ v < x := fun x => by rw [exceeds_iff, h2]
  have hn := Stream.C41_newest_kept ⟨age, bytes⟩ now segs
  -- the age check first, then the size check
  obtain ⟨g1, hg1⟩ := Stream.C41_old_end ⟨age, none⟩ now segs hs hm
  have hsz : ∃ g2, retainSegs ⟨age, none⟩ now segs = g2 ++ retainSegs ⟨age, bytes⟩ now segs
      ∧ ((retainSegs ⟨age, bytes⟩ now segs).length ≤ 1 ∨ ∀ v, bytes = some v → totalSize (retainSegs ⟨age, bytes⟩ now segs) ≤ v)
      ∧ ∀ a b, g2 = a ++ b → b ≠ [] → ∃ v, bytes = some v ∧ v < totalSize (b ++ retainSegs ⟨age, bytes⟩ now segs) := by
    cases bytes with
    | none => exact ⟨[], rfl, .inr (fun _ h => by cases h), fun a b h hb => absurd (List.append_eq_nil_iff.1 h.symm).2 hb⟩
    | some v =>
      obtain ⟨g2, k1, k2, k3⟩ := Stream.C41_size_exact age v now segs
      refine ⟨g2, k1, ?_, fun a b h hb => ⟨v, rfl, k3 a b h hb⟩⟩
      rcases k2 with k | k
      · exact .inr (fun w hw => by injection hw with hw; omega)
      · exact .inl k
  obtain ⟨g2, k1, k2, k3⟩ := hsz
  have hk := fun s => aged_keeps age now segs hs s
  generalize retainSegs ⟨age, none⟩ now segs = mid at *
  generalize retainSegs ⟨age, bytes⟩ now segs = out at *
  have hsm : (g1 ++ mid).Pairwise (fun x y => x.start < y.start) := hg1 ▸ hs
  refine ⟨⟨g1 ++ g2, by rw [hg1, k1, List.append_assoc], ?_⟩, hn, ?_, ?_⟩
  · intro a s b hab
    rw [e1, e2]
    rcases List.append_eq_append_iff.1 hab with ⟨c, hc1, hc2⟩ | ⟨c, hc1, hc2⟩
    · exact .inr (k3 c (s :: b) hc2 (by simp))
    · cases c with
      | nil => exact .inr (k3 [] (s :: b) (by simpa using hc2.symm) (by simp))
      | cons s' c =>
        injection hc2 with hs1 hs2
        subst hs1
        have hin : s ∈ g1 := by rw [hc1]; simp
        have hno : s ∉ mid := fun hmid => by
          have := (List.pairwise_append.1 hsm).2.2 s hin s hmid
          omega
        left
        apply Classical.byContradiction
        intro hc
        refine hno ((hk s).2 ⟨by rw [hg1]; exact List.mem_append_left _ hin, .inr (fun v hv => ?_)⟩)
        have : ¬ v < now - s.mtime := fun h => hc ⟨v, hv, h⟩
        omega
  · intro s hs'
    rw [e1]
    rintro ⟨v, hv, hlt⟩
    have hso : out.Pairwise (fun x y => x.start < y.start) := by
      have := (List.pairwise_append.1 hsm).2.1
      rw [k1] at this
      exact (List.pairwise_append.1 this).2.1
    have hl := not_last hso hs'
    rw [hn] at hl
    rcases ((hk s).1 (by rw [k1]; exact List.mem_append_right _ (List.dropLast_subset _ hs'))).2 with h | h
    · exact hl h
    · have := h v hv
      omega
  · rcases k2 with h | h
    · exact .inl h
    · right
      rw [e2]
      rintro ⟨v, hv, hlt⟩
      have := h v hv
      omega

/-- A topic with these options, in one run of the server. -/
theorem started_respects {env : Env} {o : StreamOpts} {base since : Nat} {H : List Stream.Msg} {t : Topic}
    (hst : Stream.StartsWith env.crc base H since t) (hcfg : t.cfg = topicCfg env.sys o) {es : List Stream.Ev} {time : Nat}
    (ho : Stream.Orderly since t (es ++ [.storage time])) {cs : List Stream.SCmd} (hc : (t.run env.crc es).chan = .retention :: cs) :
    Respected env.sys o time (t.run env.crc es).disk.segs ((t.run env.crc es).step env.crc (.storage time)).1.disk.segs := by
  obtain ⟨_, _, heq⟩ := Stream.C41_prefix hst es time cs ho hc
  rw [heq]
  obtain ⟨_, _, f, W, hd⟩ := hst.run es ho.prefix
  have hrun := Stream.run_cfg env.crc es t
  rw [hcfg] at hrun ⊢
  cases hd.disk with
  | empty h1 => rw [h1]; exact retain_respects _ _ _ _ List.Pairwise.nil (.inr List.Pairwise.nil)
  | files pre l pp p buf h1 h2 h3 =>
    rw [h1]
    refine retain_respects _ _ _ _ h3.sorted ?_
    cases ha : (topicCfg env.sys o).retention.maxAge with
    | none => exact .inl rfl
    | some a => exact .inr (h3.times (by rw [hrun, ha]; simp))

/-- Taking the command does not answer a fetch. -/
theorem retention_step {I : Type} {env : Env} {bg : I → Option (Str × Stream.Ev)} {n : Str} {x : I} {time : Nat} (hx : bg x = some (n, .storage time)) {t : Topic}
    {cs : List Stream.SCmd} (hc : t.chan = .retention :: cs) (k : Nat) : actSteps env bg n k t (.ticked x) = [.storage time] := by
  simp only [actSteps, hx]
  rw [if_pos]
  refine ⟨trivial, ?_⟩
  simp only [Topic.step, hc]
  rfl

/-- **C124** (partial: the records reach the storage task in the order of their numbers, and if there is an age limit its clock does not go
back: `Orderly`).  Whatever the clients have done since the topic `n` was created with the options `o`: when the storage task applies
retention, it does what these options ask, with the server's own limits for what they leave out and no limit where they say zero. -/
theorem C124_as_asked_partial {I : Type} {env : Env} {bg : I → Option (Str × Stream.Ev)} {A u v : List (Act I)} {n : Str} {o : StreamOpts}
    (hb : Born env bg n A u o v) {x : I} {time : Nat} (hx : bg x = some (n, .storage time))
    (ho : Stream.Orderly 0 (newTopic env o) (hist env bg n u o v ++ [.storage time]))
    {t : Topic} (ht : mget (Streams.after env bg A).topics n = some t) {cs : List Stream.SCmd} (hc : t.chan = .retention :: cs) :
    ∃ t', mget (Streams.after env bg (A ++ [.ticked x])).topics n = some t' ∧ Respected env.sys o time t.disk.segs t'.disk.segs := by
  have hn := hb.now
  rw [ht] at hn
  injection hn with hn
  subst hn
  have hb' : Born env bg n (A ++ [.ticked x]) u o (v ++ [.ticked x]) := hb.extend (fun a ha => by
    rw [List.mem_singleton] at ha; subst ha; rintro ⟨_, _, _, he⟩; cases he)
  refine ⟨_, hb'.now, ?_⟩
  rw [hb.next, retention_step hx hc, Stream.run_append]
  exact started_respects (new_starts env o) rfl ho hc

/-- **C124** (partial: the run is `Calm`).  The same across crashes, behind the network: the options of the `create` stay in force however often
the server crashes and starts again. -/
theorem C124_crashes_partial {E I : Type} (pr : Printer) (srv : Server E I) {env : Env} {lossy : Bytes → Str} {part : E → Streams} {bg : I → Option Job}
    (hp : StreamHost srv env lossy part bg) (e0 : E) (h0 : part e0 = {}) (es₁ es₂ : List (Ev I)) {tr : List (Obs I)}
    (htr : tr = ((World.init e0).run pr srv (es₁ ++ es₂)).2) (ho : Ordinary pr srv tr) (hk : env.Ok (acts tr)) (hsm : Small (acts tr))
    (hcalm : Calm env lossy bg (acts tr)) {u v : List (Act I)} {l now : Nat} {n : Str} {o : StreamOpts} {r : Option Response}
    (h₁ : acts ((World.init e0).run pr srv es₁).2 = u ++ .did l (.sCreate n o) now r :: v) (hu : ¬ Made n u) (hv : ∀ a ∈ v, ¬ dropsTopic n a)
    {x : I} {time : Nat} (hx : bg x = some (.on n (.storage time))) (hs : acts tr = u ++ .did l (.sCreate n o) now r :: v ++ [.ticked x])
    {t : Topic} (ht : mget (part ((World.init e0).run pr srv es₁).1.engine).topics n = some t) {cs : List Stream.SCmd} (hc : t.chan = .retention :: cs) :
    ∃ t', mget (part ((World.init e0).run pr srv (es₁ ++ es₂)).1.engine).topics n = some t' ∧ Respected env.sys o time t.disk.segs t'.disk.segs := by
  subst htr
  rw [streams_after pr hp h0 _ ho, hs]
  rw [streams_at pr hp h0 es₁ es₂ ho h₁] at ht
  have hw := weathered pr hp h0 _ ho hk hsm hcalm
  rw [hs] at hw
  have hr : Risen env lossy bg n (u ++ .did l (.sCreate n o) now r :: v) u o v := by
    refine ⟨⟨l, now, r, rfl⟩, ?_, hv⟩
    have := mt (made_iff (env := env) (lossy := lossy) (bg := bg) (fun l o now r hm => hcalm.names l n o now r (by rw [hs]; simp [hm]))).1 hu
    simpa using this
  obtain ⟨y, hy⟩ := hw.current ⟨_, rfl⟩ hr
  have hn := hy.now
  rw [ht] at hn
  injection hn with hn
  subst hn
  have hg := hw.goes (w₂ := []) rfl (a := .ticked x) (by rintro ⟨x', he, hb⟩; injection he with he; subst he; rw [hx] at hb; cases hb)
    (by rintro ⟨_, _, _, he⟩; cases he) hy
  have hst : stepOf bg x = some (n, .storage time) := by simp [stepOf, hx]
  have hor := hg.orderly
  refine ⟨_, hg.now, ?_⟩
  simp only [Era.on, Era.topic] at hor hc ⊢
  rw [retention_step hst hc] at hor ⊢
  rw [Stream.run_append]
  exact started_respects hy.starts hy.cfg hor hc

/-! ### A case -/

/-- The limits of the server are one second and 1000 bytes; a file holds one message. -/
def exKeepEnv : Env where
  crc := fun _ => 0
  sys := { softLimit := 10, maxSegment := 30, age := 1000, bytes := 1000, maxPending := 10, ackWait := 100, maxDeliveries := 2 }
  conn := fun _ => []
  consumer := fun k => List.replicate k 97
  order := fun _ => []
  pick := fun _ => none

/-- No limit on the age, 60 bytes. -/
def exKeepOpts : StreamOpts := { retention := some (some 0, some 60) }

/-- A message is published and stored. -/
def exKeepMsg (now : Nat) : List (Act (Str × Stream.Ev)) :=
  [.did 0 (.sPub [116] [7]) now none, .ticked ([116], .send 0), .ticked ([116], .storage now)]

/-- Four messages, and the retention task asks for retention. -/
def exKeepTail : List (Act (Str × Stream.Ev)) :=
  exKeepMsg 1 ++ exKeepMsg 2 ++ exKeepMsg 3 ++ exKeepMsg 4 ++ [.ticked ([116], .flush 5), .ticked ([116], .retainSend)]

def exKeepActs : List (Act (Str × Stream.Ev)) := .did 0 (.sCreate [116] exKeepOpts) 0 none :: exKeepTail

theorem exKeepBorn : Born exKeepEnv some [116] exKeepActs [] exKeepOpts exKeepTail :=
  ⟨⟨0, 0, none, rfl⟩, rfl, by
    intro a ha
    simp only [exKeepTail, exKeepMsg, List.cons_append, List.nil_append, List.mem_cons, List.not_mem_nil, or_false] at ha
    rintro ⟨_, _, _, he⟩
    subst he
    simp at ha⟩

example : (((mget (Streams.after exKeepEnv some exKeepActs).topics [116]).map (fun t => (t.disk.segs.map (·.start), t.chan)) = some ([1, 2, 3, 4], [.retention]))
    ∧ (mget (Streams.after exKeepEnv some (exKeepActs ++ [.ticked ([116], .storage 5000)])).topics [116]).map (fun t => t.disk.segs.map (·.start)) = some [3, 4])
    ∧ hist exKeepEnv some [116] [] exKeepOpts exKeepTail = [.publish 1 [7], .send 0, .storage 1, .publish 2 [7], .send 0, .storage 2,
      .publish 3 [7], .send 0, .storage 3, .publish 4 [7], .send 0, .storage 4, .flush 5, .retainSend] := by
  refine ⟨by decide +kernel, rfl⟩

example : Stream.Orderly 0 (newTopic exKeepEnv exKeepOpts) (hist exKeepEnv some [116] [] exKeepOpts exKeepTail ++ [.storage 5000]) := by
  have he : hist exKeepEnv some [116] [] exKeepOpts exKeepTail = [.publish 1 [7], .send 0, .storage 1, .publish 2 [7], .send 0, .storage 2,
      .publish 3 [7], .send 0, .storage 3, .publish 4 [7], .send 0, .storage 4, .flush 5, .retainSend] := rfl
  rw [he]
  refine ⟨?_, fun h => absurd rfl h, ?_⟩
  · intro i hi
    simpa using hi
  · intro m hm
    simp only [Stream.published, List.cons_append, List.nil_append] at hm
    simp only [List.mem_cons, List.not_mem_nil, or_false] at hm
    rcases hm with rfl | rfl | rfl | rfl <;> exact ⟨by decide, by decide, by decide⟩

/-! ### The same with a crash -/

def exWipeSerde : Serde := { exSerde with stream := fun s => if s = [123, 125] then some exKeepOpts else none }

/-- A publisher hands over its message, the storage task takes a command or flushes, the retention task asks for retention, the server crashes. -/
def exWipeJob : Nat × Nat → Option Job
  | (0, _) => some (.on [115] (.send 0))
  | (1, t) => some (.on [115] (.storage t))
  | (2, t) => some (.on [115] (.flush t))
  | (3, _) => some (.on [115] .retainSend)
  | (4, _) => some .crash
  | _ => none

def exWipeServer : Server Streams (Nat × Nat) where
  max := 1000
  sd := exWipeSerde
  exec := fun l now cmd e => streamExec exKeepEnv l now cmd e
  tick := fun x e =>
    match exWipeJob x with
    | some (.on n ev) => e.background exKeepEnv.crc n ev
    | some .crash => e.crash exKeepEnv.crc id
    | none => e

theorem exWipeHost : StreamHost exWipeServer exKeepEnv id (fun e => e) exWipeJob := by
  refine ⟨fun l now cmd e _ => rfl, ?_, fun x e => rfl, ?_⟩
  · intro l now cmd e hs
    cases cmd <;> first | rfl | cases hs
  · rintro ⟨k, t⟩ n ev h
    match k, h with
    | 0, h => injection h with h; injection h with _ h; subst h; rfl
    | 1, h => injection h with h; injection h with _ h; subst h; rfl
    | 2, h => injection h with h; injection h with _ h; subst h; rfl
    | 3, h => injection h with h; injection h with _ h; subst h; rfl
    | 4, h => injection h with h; cases h
    | k + 5, h => cases h

/-- A topic with the options above, two messages, a crash, another message, and the retention task asks. -/
def exWipe1 : List (Ev (Nat × Nat)) :=
  [.lib 0 .connect, .lib 0 .opened] ++ exSay 0 1 1 (.sCreate [115] exKeepOpts) ++ exSay 0 2 2 (.sPub [115] [0, 7]) ++ exSay 0 3 3 (.sPub [115] [0, 8]) ++
  [.tick (0, 4), .tick (1, 4), .tick (0, 4), .tick (1, 4), .tick (2, 4)] ++ exFall 0 5 ++ exSay 1 4 6 (.sPub [115] [0, 9]) ++
  [.tick (0, 7), .tick (1, 7), .tick (2, 7), .tick (3, 8)]

def exWipeTrace : List (Obs (Nat × Nat)) :=
  exSayObs 0 1 1 (.sCreate [115] exKeepOpts) 48 [0, 0, 0, 1, 115, 0, 0, 0, 2, 123, 125] .ok
  ++ exSayObs 0 2 2 (.sPub [115] [0, 7]) 49 [0, 0, 0, 1, 115, 0, 7] (.data (wireSeq 1))
  ++ exSayObs 0 3 3 (.sPub [115] [0, 8]) 49 [0, 0, 0, 1, 115, 0, 8] (.data (wireSeq 2))
  ++ [.ticked (0, 4), .ticked (1, 4), .ticked (0, 4), .ticked (1, 4), .ticked (2, 4), .ticked (4, 5)]
  ++ exSayObs 1 4 6 (.sPub [115] [0, 9]) 49 [0, 0, 0, 1, 115, 0, 9] (.data (wireSeq 3))
  ++ [.ticked (0, 7), .ticked (1, 7), .ticked (2, 7), .ticked (3, 8), .ticked (1, 9)]

set_option maxRecDepth 100000 in
theorem exWipeRun : ((World.init {}).run exPrinter exWipeServer (exWipe1 ++ [.tick (1, 9)])).2 = exWipeTrace := by decide +kernel

set_option maxRecDepth 100000 in
theorem exWipeRun1 : ((World.init {}).run exPrinter exWipeServer exWipe1).2 = exWipeTrace.take 22 := by decide +kernel

def exWipeActs : List (Act (Nat × Nat)) :=
  [.did 0 (.sCreate [115] exKeepOpts) 1 (some .ok), .did 0 (.sPub [115] [0, 7]) 2 (some (.data (wireSeq 1))), .did 0 (.sPub [115] [0, 8]) 3 (some (.data (wireSeq 2))),
   .ticked (0, 4), .ticked (1, 4), .ticked (0, 4), .ticked (1, 4), .ticked (2, 4), .ticked (4, 5), .did 1 (.sPub [115] [0, 9]) 6 (some (.data (wireSeq 3))),
   .ticked (0, 7), .ticked (1, 7), .ticked (2, 7), .ticked (3, 8), .ticked (1, 9)]

set_option maxRecDepth 100000 in
theorem exWipe_acts : acts exWipeTrace = exWipeActs := rfl

theorem exWipe_cmd {cmd : Cmd} (h : cmd = .sCreate [115] exKeepOpts ∨ cmd = .sPub [115] [0, 7] ∨ cmd = .sPub [115] [0, 8] ∨ cmd = .sPub [115] [0, 9]) :
    cmd.Fits ∧ cmd.Json exWipeServer.sd exPrinter ∧ ∀ op body, tsBody exPrinter cmd = some (op, body) → body.length < 2 ^ 32 := by
  rcases h with rfl | rfl | rfl | rfl
  · refine ⟨show StrOk [115] by decide, ⟨by decide, by decide⟩, ?_⟩
    intro op body hb
    injection hb with hb; injection hb with h1 h2; subst h2; decide
  all_goals
    refine ⟨show StrOk [115] by decide, trivial, ?_⟩
    intro op body hb
    injection hb with hb; injection hb with h1 h2; subst h2; decide

theorem exWipeOrdinary : Ordinary exPrinter exWipeServer exWipeTrace := by
  refine ⟨?_, ?_, ?_, fun p => countP_le _ _ _ (by decide)⟩
  · intro o ho cmd hc
    apply exWipe_cmd
    have : cmd ∈ exWipeTrace.filterMap Obs.cmd? := List.mem_filterMap.2 ⟨o, ho, hc⟩
    simp only [exWipeTrace, exSayObs, List.cons_append, List.nil_append, Obs.cmd?, List.filterMap, List.mem_cons, List.not_mem_nil, or_false] at this
    rcases this with h | h | h | h <;> simp [h]
  · intro l f now r hm
    simp only [exWipeTrace, exSayObs, List.mem_append, List.mem_cons, List.not_mem_nil, or_false, or_assoc, reduceCtorEq, false_or, Obs.executed.injEq,
      Option.some.injEq] at hm
    rcases hm with ⟨rfl, rfl, rfl, rfl⟩ | ⟨rfl, rfl, rfl, rfl⟩ | ⟨rfl, rfl, rfl, rfl⟩ | ⟨rfl, rfl, rfl, rfl⟩ <;> decide
  · intro l p hm
    simp [exWipeTrace, exSayObs] at hm

theorem exWipe_small : Small exWipeActs := by
  refine ⟨?_, by decide⟩
  intro l n pl now r hm
  simp only [exWipeActs, List.mem_cons, List.not_mem_nil, or_false, reduceCtorEq, false_or, Act.did.injEq, Cmd.sPub.injEq, false_and, and_false] at hm
  rcases hm with ⟨_, ⟨_, rfl⟩, rfl, _⟩ | ⟨_, ⟨_, rfl⟩, rfl, _⟩ | ⟨_, ⟨_, rfl⟩, rfl, _⟩ <;> exact ⟨by decide, by decide⟩

set_option maxRecDepth 100000 in
theorem exWipe_calm : Calm exKeepEnv id exWipeJob exWipeActs := by
  refine ⟨?_, ?_, ?_, ?_, ?_, ?_⟩
  · rintro ⟨k, t⟩ n i _ h
    match k, h with
    | 0, h => injection h with h; injection h with _ h; injection h with h; exact h.symm
    | 1, h => injection h with h; injection h with _ h; cases h
    | 2, h => injection h with h; injection h with _ h; cases h
    | 3, h => injection h with h; injection h with _ h; cases h
    | 4, h => injection h with h; cases h
    | k + 5, h => cases h
  · have key : ∀ k, k < 15 → clockOf exWipeJob (exWipeActs.take k) ≤ ((exWipeActs[k]?).bind (actTime exWipeJob)).getD (clockOf exWipeJob (exWipeActs.take k)) := by decide
    intro u a w h
    have hl : u.length < 15 := by
      have := congrArg List.length h
      simp [exWipeActs] at this
      omega
    have := key u.length hl
    rw [h] at this
    simpa using this
  · intro l n o now r hm
    simp only [exWipeActs, List.mem_cons, List.not_mem_nil, or_false, reduceCtorEq, false_or, Act.did.injEq, Cmd.sCreate.injEq, false_and, and_false] at hm
    rw [hm.2.1.1]; decide
  · intro l g n now r hm
    simp [exWipeActs] at hm
  · intro l n g b now r hm
    simp [exWipeActs] at hm
  · intro u a w h hb n t ht
    have hl : u.length < 15 := by
      have := congrArg List.length h
      simp [exWipeActs] at this
      omega
    have hu : u = exWipeActs.take u.length := by rw [h]; simp
    have ha : exWipeActs[u.length]? = some a := by rw [h]; simp
    have hk : ∀ k, k < 15 → (match exWipeActs[k]? with | some (.ticked (4, _)) => true | _ => false) = true → k = 8 := by decide
    have h8 : u.length = 8 := by
      apply hk _ hl
      rw [ha]
      obtain ⟨⟨k, t'⟩, rfl, hx⟩ := hb
      match k, hx with
      | 0, h => cases h
      | 1, h => cases h
      | 2, h => cases h
      | 3, h => cases h
      | 4, h => rfl
      | k + 5, h => cases h
    rw [h8] at hu
    rw [hu] at ht
    have hd : (Streams.lived exKeepEnv id exWipeJob (exWipeActs.take 8)).topics.all (fun e =>
        decide (e.2.disk.segs.getLast?.map (·.data) = some (Stream.records exKeepEnv.crc [⟨2, 3, [0, 8]⟩]))) = true := by decide +kernel
    intro sg hs
    have h1 := of_decide_eq_true (List.all_eq_true.1 hd _ (mget_some_mem ht))
    simp only [hs, Option.map_some, Option.some.injEq] at h1
    refine ⟨_, by simp, ?_, h1⟩
    intro m hm
    rw [List.mem_singleton] at hm
    subst hm
    exact ⟨by decide, by decide, by decide⟩

set_option maxRecDepth 100000 in
/-- The hypotheses of `C124_crashes_partial` are met: of three files of 26 bytes, 60 bytes leave room for two. -/
example : ∃ t t', mget ((World.init ({} : Streams)).run exPrinter exWipeServer exWipe1).1.engine.topics [115] = some t ∧
    mget ((World.init ({} : Streams)).run exPrinter exWipeServer (exWipe1 ++ [.tick (1, 9)])).1.engine.topics [115] = some t' ∧
    t.disk.segs.map (·.start) = [1, 2, 3] ∧ t'.disk.segs.map (·.start) = [2, 3] ∧ Respected exKeepEnv.sys exKeepOpts 9 t.disk.segs t'.disk.segs := by
  have h : (match mget ((World.init ({} : Streams)).run exPrinter exWipeServer exWipe1).1.engine.topics [115] with
    | some t => decide (t.chan = [.retention] ∧ t.disk.segs.map (·.start) = [1, 2, 3])
    | none => false) = true := by decide +kernel
  have h' : (mget ((World.init ({} : Streams)).run exPrinter exWipeServer (exWipe1 ++ [.tick (1, 9)])).1.engine.topics [115]).map
    (fun t => t.disk.segs.map (·.start)) = some [2, 3] := by decide +kernel
  split at h
  · next t ht =>
    obtain ⟨hc, hs⟩ := of_decide_eq_true h
    have key := C124_crashes_partial exPrinter exWipeServer exWipeHost {} rfl exWipe1 [.tick (1, 9)] exWipeRun.symm exWipeOrdinary
      (by rw [exWipe_acts]; exact ⟨fun i j _ _ h => by have := congrArg List.length h; simpa [exKeepEnv] using this, by decide⟩)
      (by rw [exWipe_acts]; exact exWipe_small) (by rw [exWipe_acts]; exact exWipe_calm) (u := []) (v := (exWipeActs.take 14).drop 1) (l := 0) (now := 1) (n := [115])
      (o := exKeepOpts) (r := some .ok) (by rw [exWipeRun1]; rfl) (by rintro ⟨u, l, o, now, r, v, he, _⟩; cases u <;> cases he) (exStorm_nodrop _ (by decide))
      (x := (1, 9)) (time := 9) rfl rfl ht hc
    obtain ⟨t', ht', hr⟩ := key
    rw [ht'] at h'
    exact ⟨t, t', ht, ht', hs, by simpa using h', hr⟩
  · cases h

end Verif.Rpc
