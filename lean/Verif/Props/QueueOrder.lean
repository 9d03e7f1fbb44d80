import Verif.Proofs.QueueOrder
import Verif.Props.QueueCrashRpc

/-!
# C122: order of arrival across crashes

The English statement is in `/verif/properties.jsonl`.  The server of these theorems (`QueueHost`) may crash at any moment and start
again from what the writers of its queues have committed.
-/

namespace Verif.Rpc

open Verif Verif.Wire Verif.Sdk
open Verif.Queue (Config Op MEvent Event Mgr life Fresh pushIds QInner era eraSys evsOn opsOf ValidHist eventIds)

variable {E I : Type} {cfg : Config} {batch : Nat} {supply : Nat → Queue.Id} {bg : I → Option MEvent} {A : List (Act I)}

/-- The push with a given number is the only one. -/
theorem push_number {v v₁ x y : List (Act I)} {l l₂ t t₂ : Nat} {q q₂ : Str} {o o₂ : PushOpts} {p p₂ : Bytes} {r r₂ : Option Response}
    (h : v₁ ++ .did l (.qPush q o p) t r :: v = x ++ .did l₂ (.qPush q₂ o₂ p₂) t₂ r₂ :: y) (hc : v₁.countP isPush = x.countP isPush) : o = o₂ := by
  have hlen : v₁ = x := by
    rcases List.append_eq_append_iff.1 h with ⟨c, e1, e2⟩ | ⟨c, e1, e2⟩
    · cases c with
      | nil => simpa using e1.symm
      | cons b c =>
        simp only [List.cons_append, List.cons.injEq] at e2
        obtain ⟨rfl, _⟩ := e2
        rw [e1, List.countP_append, List.countP_cons] at hc
        simp [isPush] at hc
    · cases c with
      | nil => simpa using e1
      | cons b c =>
        simp only [List.cons_append, List.cons.injEq] at e2
        obtain ⟨rfl, _⟩ := e2
        rw [e1, List.countP_append, List.countP_cons] at hc
        simp [isPush] at hc
  subst hlen
  have := List.append_cancel_left h
  simp only [List.cons.injEq, Act.did.injEq, Cmd.qPush.injEq] at this
  exact this.1.2.1.2.1

/-- While a message that was written waits, whatever crashes, a later one with the same or a lower priority is behind it. -/
theorem Stormy.order (h : Stormy cfg batch supply bg A) {u v₁ v₂ x y z : List (Act I)} {l t l₂ t₂ l' now made : Nat} {q : Str} {opts opts₂ : PushOpts}
    {pl pl₂ : Bytes} {opts' : ConsumeOpts} {r r₂ : Option Response}
    (hs : A = u ++ .did l (.qPush q opts pl) t (some .ok) :: (v₁ ++ v₂) ++ .did l' (.qConsume q opts') now r :: z)
    (hb : v₁ ++ v₂ = x ++ .did l₂ (.qPush q opts₂ pl₂) t₂ r₂ :: y) (hpr : opts₂.priority.getD 0 ≤ opts.priority.getD 0)
    (hd : ∀ a ∈ v₁ ++ v₂, ¬ deletes q a)
    (hh : ∀ a ∈ v₁ ++ v₂, ¬ handsOut q (pushedId supply u) a) (hst : ∀ a ∈ v₁ ++ v₂, ¬ settles q (pushedId supply u) a)
    (hc : ∀ a ∈ v₁, ¬ crashes bg a)
    (hw : Stored ⟨(Mgr.new.run cfg (events batch supply bg 0 (u ++ .did l (.qPush q opts pl) t (some .ok) :: v₁))).1, made⟩ q (pushedId supply u))
    (hB : pushedId supply (u ++ .did l (.qPush q opts pl) t (some .ok) :: x) ∈ handedIds r) :
    ∃ x₁ x₂ x₃, handedIds r = x₁ ++ pushedId supply u :: x₂ ++ pushedId supply (u ++ .did l (.qPush q opts pl) t (some .ok) :: x) :: x₃ := by
  have hcount : (u ++ Act.did l (.qPush q opts pl) t (some .ok) :: x).countP isPush = u.countP isPush + 1 + x.countP isPush := by
    rw [List.countP_append, List.countP_cons]; simp [isPush]; omega
  have hlt : u.countP isPush + 1 + x.countP isPush < A.countP isPush := by
    rw [hs, hb, List.countP_append, List.countP_append, List.countP_cons, List.countP_append, List.countP_cons]
    simp only [isPush, if_true]; omega
  have hs1 : A = u ++ .did l (.qPush q opts pl) t (some .ok) :: (v₁ ++ v₂ ++ .did l' (.qConsume q opts') now r :: z) := by rw [hs]; simp
  have ha := h.answer hs1 (q := q) (o := .push (supply (u.countP isPush)) pl (opts.priority.getD 0) t) rfl
  have hsm := h.small hs1
  have hsmb : supply (u.countP isPush + 1 + x.countP isPush) < 2 ^ 128 := h.ids.small _ hlt
  have hne : supply (u.countP isPush) ≠ supply (u.countP isPush + 1 + x.countP isPush) := by
    intro e
    have := h.ids.inj _ _ (by omega) hlt e
    omega
  cases hx : era cfg q (events batch supply bg 0 u) with
  | none => rw [hx] at ha; simp [queueAnswer, Queue.missing] at ha
  | some w =>
    have hev : eventOf batch supply bg (u.countP isPush) (Act.did l (.qPush q opts pl) t (some .ok)) =
      some (.op q (.push (supply (u.countP isPush)) pl (opts.priority.getD 0) t)) := rfl
    have hk : u.countP isPush + 1 = u.countP isPush + if isPush (Act.did l (.qPush q opts pl) t (some .ok) : Act I) then 1 else 0 := rfl
    have hy := era_on (cfg := cfg) h.tasks hev trivial hk hx (v := v₁ ++ v₂) hd
    have hy1 := era_on (cfg := cfg) h.tasks hev trivial hk hx (v := v₁) (fun a ha => hd a (List.mem_append_left _ ha))
    have hstY : Stormy cfg batch supply bg (u ++ .did l (.qPush q opts pl) t (some .ok) :: (v₁ ++ v₂)) := by subst hs; exact h.left
    have hst1 : Stormy cfg batch supply bg (u ++ .did l (.qPush q opts pl) t (some .ok) :: v₁) := by
      have : u ++ Act.did l (.qPush q opts pl) t (some .ok) :: (v₁ ++ v₂) = (u ++ .did l (.qPush q opts pl) t (some .ok) :: v₁) ++ v₂ := by simp
      rw [this] at hstY
      exact hstY.left
    have hvY := hstY.fresh hy
    have hund := h.undisturbed hs hev trivial hk hx (id := supply (u.countP isPush)) hd hh hst
    have hbu : supply (u.countP isPush + 1 + x.countP isPush) ∉ eventIds w.2 := by
      intro hm
      rw [← Queue.pushIds_opsOf] at hm
      obtain ⟨u1, l1, o1, t1, r1, u2, e1, _, e3, _⟩ := life_acts h.tasks (era_to_life hx)
      simp only at e3
      rw [e3] at hm
      have hcu : u.countP isPush = u1.countP isPush + u2.countP isPush := by rw [e1, List.countP_append, List.countP_cons]; simp [isPush]
      obtain ⟨j, _, j2, hj⟩ := (event_ids h.tasks h.ids q u2 _ (by omega) (batch := batch)).2 _ hm
      have := h.ids.inj _ _ hlt (by omega) hj
      omega
    have hpush : ∀ pl' pr t', Event.op (.push (supply (u.countP isPush + 1 + x.countP isPush)) pl' pr t') ∈
        evsOn q (events batch supply bg (u.countP isPush + 1) (v₁ ++ v₂)) → pr ≤ opts.priority.getD 0 := by
      intro pl' pr t' hm
      obtain ⟨E1, E2, hE⟩ := List.append_of_mem hm
      obtain ⟨w1, a, w2, hv, _, he, _⟩ := evs_split h.tasks hE
      rcases event_of_op h.tasks he with ⟨l3, o3, p3, t3, r3, rfl, ho⟩ | ⟨_, _, _, _, _, ho⟩ | ⟨_, _, _, _, _, ho⟩ |
        ⟨_, _, _, _, _, _, ho⟩ | ⟨_, _, _, _, _, ho⟩ | ho
      · injection ho with o1 o2 o3 o4
        have hle : u.countP isPush + 1 + w1.countP isPush < A.countP isPush := by
          rw [hs, hv, List.countP_append, List.countP_append, List.countP_cons, List.countP_append, List.countP_cons]
          simp only [isPush, if_true]; omega
        have hcw := h.ids.inj _ _ hlt hle o1
        rw [hv] at hb
        rw [o3, push_number hb (by omega)]
        exact hpr
      · cases ho
      · cases ho
      · cases ho
      · cases ho
      · simp [Op.pushId] at ho
    have hsplit : evsOn q (events batch supply bg (u.countP isPush + 1) (v₁ ++ v₂)) =
        evsOn q (events batch supply bg (u.countP isPush + 1) v₁) ++ evsOn q (events batch supply bg (u.countP isPush + 1 + v₁.countP isPush) v₂) := by
      rw [events_append, Queue.evsOn_append]
    rw [hsplit] at hy hund hvY hpush
    have hstored := hst1.stored hy1 hw
    have hval : beVal (pushedId supply u) = supply (u.countP isPush) := uuid_val hsm
    rw [hval] at hstored
    have hnore : ∀ now, Event.restart now ∉ evsOn q (events batch supply bg (u.countP isPush + 1) v₁) := by
      intro now hm
      obtain ⟨a, ha, hca⟩ := crash_event hm
      exact hc a ha ⟨now, hca⟩
    generalize evsOn q (events batch supply bg (u.countP isPush + 1) v₁) = E₁ at *
    generalize evsOn q (events batch supply bg (u.countP isPush + 1 + v₁.countP isPush) v₂) = E₂ at *
    have e1 : w.2 ++ Event.op (.push (supply (u.countP isPush)) pl (opts.priority.getD 0) t) :: (E₁ ++ E₂) =
        w.2 ++ [.op (.push (supply (u.countP isPush)) pl (opts.priority.getD 0) t)] ++ E₁ ++ E₂ := by simp
    have e2 : w.2 ++ Event.op (.push (supply (u.countP isPush)) pl (opts.priority.getD 0) t) :: E₁ =
        w.2 ++ [.op (.push (supply (u.countP isPush)) pl (opts.priority.getD 0) t)] ++ E₁ := by simp
    simp only [e1] at hy hvY
    rw [e2] at hstored
    have htr := Queue.trails_run hne hvY hbu hnore hund hpush hstored
    obtain ⟨a, hR, hAh, _⟩ := htr.now
    rcases h.consume hs with ⟨k, _⟩ | ⟨y', msgs, k1, k2, k3, k4⟩
    · unfold handedIds at hB; rw [k] at hB; simp at hB
    · rw [hy] at k1
      injection k1 with k1
      subst k1
      obtain ⟨s1, s2, s3⟩ := hR.stepU (op := .consume (opts'.batchSize.getD batch) now) k2 (by simp [Op.pushId])
      rw [k3] at s3
      have hids : handedIds r = (msgs.map (·.id)).map uuidBytes := by rw [handed_ids k4, List.map_map]; rfl
      have s4 : msgs.map (·.id) = (Queue.sstep (eraSys _).q.cfg a (.consume (opts'.batchSize.getD batch) now)).2.delivered := s3
      have hb' : supply (u.countP isPush + 1 + x.countP isPush) ∈ msgs.map (·.id) := by
        rw [hids] at hB
        unfold pushedId at hB
        rw [hcount] at hB
        obtain ⟨i, hi, he⟩ := List.mem_map.1 hB
        have hsmi : i < 2 ^ 128 := by
          obtain ⟨m, hm, rfl⟩ := List.mem_map.1 hi
          obtain ⟨u1, _, _, _, _, f1, f2, _⟩ := life_pushed h.tasks (era_to_life hy) ((Queue.era_pushed hvY k2 k3).2 m hm)
          show m.id < 2 ^ 128
          rw [f2]; exact hstY.small f1
        rw [← uuid_inj hsmi hsmb he]; exact hi
      rcases hAh.step (vt := (eraSys _).q.cfg.visibilityTimeout) (mr := (eraSys _).q.cfg.maxRetries) (tr := Queue.timeoutReason)
        (op := (Op.consume (opts'.batchSize.getD batch) now).req) (by simp [Op.req]) (by simp [Op.req]) (by simp [Op.req]) with ⟨_, g⟩ | ⟨l1, r1, g1, g2⟩
      · exfalso
        rw [s4] at hb'
        exact g _ hb' rfl
      · have s5 : msgs.map (·.id) = l1 ++ supply (u.countP isPush) :: r1 := by rw [s4]; exact g1
        rw [s5] at hb'
        rcases List.mem_append.1 hb' with hb' | hb'
        · exact absurd rfl (g2 _ hb')
        · rcases List.mem_cons.1 hb' with hb' | hb'
          · exact absurd hb'.symm hne
          · obtain ⟨r2, r3, rfl⟩ := List.append_of_mem hb'
            refine ⟨l1.map uuidBytes, r2.map uuidBytes, r3.map uuidBytes, ?_⟩
            rw [hids, s5]
            unfold pushedId
            rw [hcount]
            simp

/-! ## C122 -/

/-- **C122** (partial: no name of a queue ends in ".db", storage operations reach the writer in the order of the calls, and the first of the two
messages was written before the first crash).  First come, first served, whatever crashes: a `push` was answered `ok` and written, and since
then nobody was handed the message, nobody acknowledged or refused it, and the queue was not deleted; then no `consume` hands out, without it
or before it, a message that was pushed to the queue later with the same or a lower priority. -/
theorem C122_order_partial (pr : Printer) (srv : Server E I) {part : E → Queues} (hp : QueueHost srv cfg batch supply part bg) (e0 : E)
    (h0 : part e0 = {}) (es₁ es₂ : List (Ev I))
    {tr : List (Obs I)} (htr : tr = ((World.init e0).run pr srv (es₁ ++ es₂)).2) (ho : Ordinary pr srv tr) (hu : Uuids supply ((acts tr).countP isPush))
    (hn : ∀ l q o t r, Act.did l (.qCreate q o) t r ∈ acts tr → Queue.plainName q)
    {u v₁ v₂ x y z : List (Act I)} {l t l₂ t₂ l' now : Nat} {q : Str} {opts opts₂ : PushOpts} {pl pl₂ : Bytes} {opts' : ConsumeOpts} {r r₂ : Option Response}
    (h₁ : acts ((World.init e0).run pr srv es₁).2 = u ++ .did l (.qPush q opts pl) t (some .ok) :: v₁)
    (hw : Stored (part ((World.init e0).run pr srv es₁).1.engine) q (pushedId supply u)) (hc : ∀ a ∈ v₁, ¬ crashes bg a)
    (hs : acts tr = u ++ .did l (.qPush q opts pl) t (some .ok) :: (v₁ ++ v₂) ++ .did l' (.qConsume q opts') now r :: z)
    (hb : v₁ ++ v₂ = x ++ .did l₂ (.qPush q opts₂ pl₂) t₂ r₂ :: y) (hpr : opts₂.priority.getD 0 ≤ opts.priority.getD 0)
    (hd : ∀ a ∈ v₁ ++ v₂, ¬ deletes q a) (hh : ∀ a ∈ v₁ ++ v₂, ¬ handsOut q (pushedId supply u) a)
    (hst : ∀ a ∈ v₁ ++ v₂, ¬ settles q (pushedId supply u) a)
    (hB : pushedId supply (u ++ .did l (.qPush q opts pl) t (some .ok) :: x) ∈ handedIds r) :
    ∃ x₁ x₂ x₃, handedIds r = x₁ ++ pushedId supply u :: x₂ ++ pushedId supply (u ++ .did l (.qPush q opts pl) t (some .ok) :: x) :: x₃ := by
  subst htr
  exact (stormy pr hp h0 _ ho hu hn).order hs hb hpr hd hh hst hc (stored_at pr hp h0 es₁ es₂ ho h₁ hw) hB

/-! ## A concrete server -/

/-- A client creates a queue and pushes a message, which is written. -/
def exLine1 : List (Ev Queue.MEvent) :=
  [.lib 0 .connect, .lib 0 .opened] ++ exAsk 0 1 1 (.qCreate [97] ⟨none, none⟩) ++ exAsk 0 2 2 (.qPush [97] ⟨none⟩ [0, 7]) ++ [.tick (.commit [97] 100)]

/-- It pushes another one, which is written too; the server crashes, and the client consumes. -/
def exLine2 : List (Ev Queue.MEvent) :=
  exAsk 0 3 3 (.qPush [97] ⟨none⟩ [0, 8]) ++ [.tick (.commit [97] 100)] ++ exBreak 0 6 ++ exAsk 1 4 8 (.qConsume [97] ⟨none, none⟩)

def exLineTrace : List (Obs Queue.MEvent) :=
  [.called 0 1 (.qCreate [97] ⟨none, none⟩) (some (0, 1)), .executed 0 ⟨1, 16, 1, [0, 0, 0, 1, 97, 0, 0, 0, 2, 123, 125]⟩ 1 (some .ok), .settled 0 1 (.answer 0 []),
   .called 0 2 (.qPush [97] ⟨none⟩ [0, 7]) (some (0, 2)), .executed 0 ⟨1, 17, 2, [0, 0, 0, 1, 97, 0, 0, 0, 2, 123, 125, 0, 7]⟩ 2 (some .ok), .settled 0 2 (.answer 0 []),
   .ticked (.commit [97] 100),
   .called 0 3 (.qPush [97] ⟨none⟩ [0, 8]) (some (0, 3)), .executed 0 ⟨1, 17, 3, [0, 0, 0, 1, 97, 0, 0, 0, 2, 123, 125, 0, 8]⟩ 3 (some .ok), .settled 0 3 (.answer 0 []),
   .ticked (.commit [97] 100), .ticked (.restart 6),
   .called 0 4 (.qConsume [97] ⟨none, none⟩) (some (1, 4)), .executed 1 ⟨1, 18, 4, [0, 0, 0, 1, 97, 0, 0, 0, 2, 123, 125]⟩ 8 (some (.data (exBatch [(0, [0, 7]), (1, [0, 8])]))),
   .settled 0 4 (.answer 3 (exBatch [(0, [0, 7]), (1, [0, 8])]))]

def exLineActs : List (Act Queue.MEvent) :=
  [.did 0 (.qCreate [97] ⟨none, none⟩) 1 (some .ok), .did 0 (.qPush [97] ⟨none⟩ [0, 7]) 2 (some .ok), .ticked (.commit [97] 100),
   .did 0 (.qPush [97] ⟨none⟩ [0, 8]) 3 (some .ok), .ticked (.commit [97] 100), .ticked (.restart 6),
   .did 1 (.qConsume [97] ⟨none, none⟩) 8 (some (.data (exBatch [(0, [0, 7]), (1, [0, 8])])))]

theorem exLine_acts : acts exLineTrace = exLineActs := rfl

set_option maxRecDepth 100000 in
theorem exLineRun : ((World.init {}).run exPrinter exCrashServer (exLine1 ++ exLine2)).2 = exLineTrace := by decide +kernel

set_option maxRecDepth 100000 in
theorem exLineRun1 : ((World.init {}).run exPrinter exCrashServer exLine1).2 = exLineTrace.take 7 := by decide +kernel

theorem exLineOrdinary : Ordinary exPrinter exCrashServer exLineTrace := by
  refine ⟨?_, ?_, ?_, fun p => countP_le _ _ _ (by decide)⟩
  · intro o ho cmd hc
    apply exCrash_cmd
    have : cmd ∈ exLineTrace.filterMap Obs.cmd? := List.mem_filterMap.2 ⟨o, ho, hc⟩
    simp only [exLineTrace, Obs.cmd?, List.filterMap, List.mem_cons, List.not_mem_nil, or_false] at this
    rcases this with h | h | h | h <;> simp [h]
  · intro l f now r hm
    simp only [exLineTrace, List.mem_cons, List.not_mem_nil, or_false, reduceCtorEq, false_or, Obs.executed.injEq, Option.some.injEq] at hm
    rcases hm with ⟨rfl, rfl, rfl, rfl⟩ | ⟨rfl, rfl, rfl, rfl⟩ | ⟨rfl, rfl, rfl, rfl⟩ | ⟨rfl, rfl, rfl, rfl⟩ <;> decide
  · intro l p hm
    simp [exLineTrace] at hm

theorem exLine_names : ∀ l q o t r, Act.did l (.qCreate q o) t r ∈ acts exLineTrace → Queue.plainName q := by
  intro l q o t r hm
  rw [exLine_acts] at hm
  simp only [exLineActs, List.mem_cons, List.not_mem_nil, or_false, reduceCtorEq, Act.did.injEq, Cmd.qCreate.injEq] at hm
  simp only [false_and, and_false, or_false] at hm
  rw [hm.2.1.1]
  exact (by decide : ¬ Queue.dotDb <:+ [97] ∧ (47 : UInt8) ∉ [97])

set_option maxRecDepth 100000 in
theorem exLine_stored (i : Bytes) : Stored ((World.init ({} : Queues)).run exPrinter exCrashServer exLine1).1.engine [97] i := stored_empty (by decide +kernel)

/-- The hypotheses of `C122_order_partial` are met: the two messages, in the answer after a crash. -/
example : ∃ x₁ x₂ x₃, handedIds (some (.data (exBatch [(0, [0, 7]), (1, [0, 8])]))) = x₁ ++ uuidBytes 0 :: x₂ ++ uuidBytes 1 :: x₃ := by
  refine C122_order_partial (supply := fun i => i) exPrinter exCrashServer exCrashHost {} rfl exLine1 exLine2 exLineRun.symm exLineOrdinary
    ⟨fun _ _ _ _ h => h, fun i hi => Nat.lt_of_lt_of_le hi (by decide)⟩ exLine_names (u := exLineActs.take 1) (v₁ := [.ticked (.commit [97] 100)])
    (v₂ := (exLineActs.take 6).drop 3) (x := [.ticked (.commit [97] 100)]) (y := [.ticked (.commit [97] 100), .ticked (.restart 6)]) (z := [])
    (l := 0) (t := 2) (l₂ := 0) (t₂ := 3) (l' := 1) (now := 8) (q := [97]) (opts := ⟨none⟩) (opts₂ := ⟨none⟩) (pl := [0, 7]) (pl₂ := [0, 8])
    (opts' := ⟨none, none⟩) (r₂ := some .ok) (by rw [exLineRun1]; rfl) (exLine_stored _) (exCommit_calm rfl) rfl rfl (by decide) ?_ ?_ ?_ (by decide)
  · intro a ha
    simp only [exLineActs, List.take, List.drop, List.cons_append, List.nil_append, List.mem_cons, List.not_mem_nil, or_false] at ha
    rintro ⟨_, _, _, rfl⟩
    simp at ha
  · intro a ha
    simp only [exLineActs, List.take, List.drop, List.cons_append, List.nil_append, List.mem_cons, List.not_mem_nil, or_false] at ha
    rintro ⟨_, _, _, _, rfl, _⟩
    simp at ha
  · intro a ha
    simp only [exLineActs, List.take, List.drop, List.cons_append, List.nil_append, List.mem_cons, List.not_mem_nil, or_false] at ha
    rintro (⟨_, _, _, rfl⟩ | ⟨_, _, _, _, rfl⟩) <;> simp at ha

/-! ## A message that lined up again -/

/-- **C122** (negation of the claim for messages that line up again).  Two messages are pushed, the first is handed out and refused, so it
lines up again behind the second; all this is written.  The next `consume` hands out the second message first.  If the server crashes before
it, the same `consume` hands out the first message first: the restart put it back to where it was pushed. -/
theorem C122_requeued_violated : ∃ (c : Config) (es : List Event) (first second : Queue.Id) (t now : Nat), ValidHist es ∧
    es = [.op (.push first [7] 0 1), .op (.push second [8] 0 2), .op (.consume 1 3), .op (.nack first [] 4), .commit 4] ∧
    (eraSys (c, es)).pending = [] ∧
    (Queue.step (eraSys (c, es)).q (.consume 2 now)).2.1.delivered = [second, first] ∧
    (Queue.step (eraSys (c, es ++ [.restart t])).q (.consume 2 now)).2.1.delivered = [first, second] := by
  refine ⟨⟨100, 5⟩, [.op (.push 1 [7] 0 1), .op (.push 2 [8] 0 2), .op (.consume 1 3), .op (.nack 1 [] 4), .commit 4], 1, 2, 5, 6, ⟨?_, by decide⟩, rfl, ?_, ?_, ?_⟩
  · intro e he
    simp only [List.mem_cons, List.not_mem_nil, or_false] at he
    rcases he with rfl | rfl | rfl | rfl | rfl <;> first | trivial | exact (by decide : 1 * Queue.msgSize ≤ Queue.isizeMax)
  all_goals decide +kernel

end Verif.Rpc
