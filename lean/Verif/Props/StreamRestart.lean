import Verif.Proofs.StreamRestart
import Verif.Props.StreamLog
import Verif.Props.Stream

/-!
# Properties of restarts and of concurrent publishers (C57–C60)

A crash may come after any history, in particular after any `leak` (part of the buffered bytes have reached the file).
The restarted topic is built from the files alone (`Topic.restart`).  Data that has been handed to the operating system
counts as written (the code never calls `fsync`).
-/

namespace Verif.Stream

namespace Ex

def cfgM : Cfg :=
  { softLimit := 1, maxSegment := 1000, retention := ⟨none, none⟩, maxPending := 3, ackWait := 10, maxDeliveries := 2 }

def tM : Topic := Topic.fresh sum cfgM

theorem startsM : StartsWith sum 1 [] 0 tM := by
  refine ⟨id, { segs := [], writers := [], groups := none }, ⟨⟨[], ⟨rfl, rfl, by simp⟩, rfl, by simp, fun _ => rfl⟩,
    by decide, ?_, by simp, by simp, by simp⟩, rfl⟩
  intro i m h; simp at h

theorem orderlyM {t : Topic} (es : List Ev) (hm : t.cfg.retention.maxAge = none) (h : ∀ i, Ev.send i ∈ es → i = 0)
    (hf : (published t.log.next es).all (fun m => decide (m.payload.length < 100 ∧ m.seq < 100 ∧ m.timestamp < 100)) = true)
    (now : Nat) : Orderly now t es := by
  refine ⟨h, fun ha => absurd hm ha, fun m hmem => ?_⟩
  have := List.all_eq_true.1 hf m hmem
  simp only [decide_eq_true_eq] at this
  have e1 : 2 ^ 32 = 4294967296 := by decide
  have e2 : 2 ^ 64 = 18446744073709551616 := by decide
  rw [Fits, e1, e2]
  omega

/-- Message 2 starts a new segment; the crash comes before it is written. -/
def esEmpty : List Ev := [.publish 5 [1], .send 0, .publish 6 [2], .send 0, .storage 10, .storage 11]

/-- Message 1 is flushed, message 2 only partly written. -/
def esTorn : List Ev :=
  [.publish 5 [1], .send 0, .storage 10, .flush 11, .publish 6 [2], .send 0, .storage 12, .leak 1 3 13]

/-- After the restart another message is published and flushed. -/
def esAgain : List Ev := [.publish 7 [3], .send 0, .storage 20, .flush 21]

/-- A consumer acknowledges a message, the progress is saved, the message is not yet flushed. -/
def esAcked : List Ev :=
  [.join g k1 c1, .publish 5 [1], .send 0, .fetch g c1 1 9 false, .attempt 0 6, .ack g c1 1 1, .storage 10, .save id, .storage 11]

/-- The second of two concurrent publishers is the first to reach the storage task. -/
def esSwap : List Ev := [.publish 5 [1], .publish 6 [2], .send 1, .send 0, .storage 10, .storage 11, .flush 12]

end Ex

/-! ### C57: sequence numbers after a restart -/

/-- **C57 does not hold** in full: when the newest segment holds no complete record, the restarted topic starts again
with the number of the oldest message.  Here message 1 is in the files, the server restarts, and the next publish is
answered with number 1 again; when the new message has left the memory, number 1 is the old message again. -/
theorem C57_violated :
    let t := (Ex.tL.run Ex.sum Ex.esEmpty).restart Ex.sum id
    Orderly 0 Ex.tL Ex.esEmpty ∧ loadLog Ex.sum ((Ex.tL.run Ex.sum Ex.esEmpty).disk.segs.head?.map (·.data)).get! = [⟨1, 5, [1]⟩]
    ∧ ((t.run Ex.sum [.publish 20 [9]]).step Ex.sum (.send 0)).2 matches .published 1
    ∧ ((t.run Ex.sum [.publish 20 [9], .send 0]).step Ex.sum (.read 1 1)).2 matches .readReply _ [⟨1, 20, [9]⟩]
    ∧ ((t.run Ex.sum [.publish 20 [9], .send 0, .publish 21 [8], .send 0, .storage 22, .storage 22, .flush 23, .evictLoad, .evictRun,
        .read 1 1, .storage 24]).step Ex.sum (.readDone 0)).2 matches .readReply _ [⟨1, 5, [1]⟩] := by
  refine ⟨Ex.orderlyM _ rfl ?_ (by decide) 0, by decide, by decide, by decide, by decide⟩
  intro i hi; simp [Ex.esEmpty] at hi; exact hi

theorem lives_append (crc : Bytes → Nat) {es : List Ev} {lossy : Bytes → Str} {after : List (List Ev × (Bytes → Str))} :
    ∀ (before : List (List Ev × (Bytes → Str))) (t : Topic), t.lives crc (before ++ (es, lossy) :: after)
      = (((t.lives crc before).run crc es).restart crc lossy).lives crc after := by
  intro before
  induction before with
  | nil => intro t; rfl
  | cons r rs ih => intro t; exact ih _

section

variable {crc : Bytes → Nat} {base : Nat} {H : List Msg} {now : Nat} {t : Topic} (hst : StartsWith crc base H now t)
include hst

/-- **C57**, the part that holds: if the newest segment holds a complete record when the server stops (whatever has been
cut off behind it), the next publish gets a number above that of every message that can be read after the restart. -/
theorem C57_partial (es : List Ev) (ho : Orderly now t es) (hrec : SomeRecord crc (t.run crc es).disk) (lossy : Bytes → Str)
    (m : Msg) (hm : m ∈ ((t.run crc es).restart crc lossy).log.msgs
      ∨ ∃ fromSeq limit, m ∈ coldRead crc ((t.run crc es).restart crc lossy).disk.segs fromSeq limit) :
    m.seq < ((t.run crc es).restart crc lossy).log.next := by
  obtain ⟨hi, hb, f, W, hd⟩ := hst.run es ho
  obtain ⟨D, qs, h1, h2, h3, h4, _⟩ := hd.disk.complete hd.fitsW
  have hnum : Numbered f qs.flatten := h3 ▸ hd.numW.take D
  have hfit : ∀ m ∈ qs.flatten, Fits m := fun m hm => hd.fitsW m (List.mem_of_mem_take (h3 ▸ hm))
  have hlow := hd.low
  by_cases hs : (t.run crc es).disk.segs = []
  · exfalso
    rcases hm with hm | ⟨fr, l, hm⟩
    · have hnil : ((t.run crc es).restart crc lossy).log.msgs = [] := by
        simp [Topic.restart, Topic.build, Log.restore, Stream.recover, hs]
      rw [hnil] at hm; cases hm
    · have : ((t.run crc es).restart crc lossy).disk.segs = [] := hs
      rw [this] at hm; cases hm
  · obtain ⟨pq, q, a1, a2, a3, a4, a5, a6⟩ := h4.built (d := { (t.run crc es).disk with writers := [] }) hfit hnum
      (by omega) hs hrec (t.run crc es).cfg lossy
    have hmem : m ∈ qs.flatten := by
      rcases hm with hm | ⟨fr, l, hm⟩
      · have : m ∈ q := by rw [← a3]; exact hm
        rw [a1, List.flatten_append]
        exact List.mem_append_right _ (by simpa using this)
      · have e : ((t.run crc es).restart crc lossy).disk.segs = (t.run crc es).disk.segs := rfl
        rw [e, coldRead_holds fr l hs h4 hnum hfit] at hm
        exact List.mem_of_mem_drop (List.mem_of_mem_take hm)
    have := (hnum.mem hmem).2
    show m.seq < (Topic.build crc _ lossy _).log.next
    rw [a5]
    omega

/-! ### C58: flushed messages survive -/

/-- **C58**, the part that holds for one crash: after any history and at any crash point that leaves a complete record in
the newest segment (whatever has been cut off behind it), every message that has been flushed can be read after the
restart, unless retention has removed it. -/
theorem C58_crash_partial (es : List Ev) (ho : Orderly now t es) (hrec : SomeRecord crc (t.run crc es).disk)
    (lossy : Bytes → Str) (m : Msg) (hm : m ∈ H ++ published t.log.next es) (hp : m.seq ≤ (t.run crc es).persisted) :
    Readable crc ((t.run crc es).restart crc lossy) m ∨ m.seq < (t.run crc es).disk.headSeq := by
  obtain ⟨hi, hb, f, W, hd⟩ := hst.run es ho
  obtain ⟨D, qs, h1, h2, h3, h4, _⟩ := hd.disk.complete hd.fitsW
  have hlow := hd.low
  rw [hd.disk.headSeq]
  by_cases hf : m.seq < f
  · exact .inr hf
  · left
    exact Holds.readable (d := { (t.run crc es).disk with writers := [] }) h4
      (fun m hm => hd.fitsW m (List.mem_of_mem_take (h3 ▸ hm))) (h3 ▸ hd.numW.take D) (by omega) hrec _ _
      (h3 ▸ hd.flushedAt hm (by omega) h1 (by omega))

/-- **C58**, the part that holds for any number of crashes: if no crash cuts off a write, a message that was published
in some run and flushed before its end can be read after all the runs, unless retention has removed it. -/
theorem C58_restarts_partial (before after : List (List Ev × (Bytes → Str))) (es : List Ev) (lossy : Bytes → Str)
    (hr : CleanRuns crc now t (before ++ (es, lossy) :: after)) (m : Msg)
    (hm : m ∈ published (t.lives crc before).log.next es) (hp : m.seq ≤ ((t.lives crc before).run crc es).persisted) :
    Readable crc (t.lives crc (before ++ (es, lossy) :: after)) m
      ∨ m.seq < (t.lives crc (before ++ (es, lossy) :: after)).log.head := by
  obtain ⟨_, now1, h2, ho, hc, hrest⟩ := hr.append
  obtain ⟨b1, H1, hs1⟩ := h2 base H hst
  obtain ⟨b2, H2, hs2, _, k2, _⟩ := hs1.next es ho hc lossy
  obtain ⟨b3, H3, n3, hs3, _, k3⟩ := hs2.lives after hrest
  have hl : t.lives crc (before ++ (es, lossy) :: after)
      = (((t.lives crc before).run crc es).restart crc lossy).lives crc after := lives_append crc before t
  have hhead : (t.lives crc (before ++ (es, lossy) :: after)).log.head = b3 := by
    rw [hl]; exact hs3.inv.2.2.1
  rw [hhead, hl]
  rcases k2 m (List.mem_append_right _ hm) hp with h | h
  · rcases k3 m h with h | h
    · exact .inl (hs3.readable h)
    · exact .inr h
  · exact .inr (by have := hs2.inv; omega)

end

/-- **C58 does not hold** in full: a torn record at the end of the newest segment is not cut off, and what is appended
behind it is lost with the next restart.  Here message 2 is published and flushed after a restart (its publish was
answered, and `persisted` covers it), and the next restart does not find it. -/
theorem C58_violated :
    let t1 := (Ex.tM.run Ex.sum Ex.esTorn).restart Ex.sum id
    let t2 := (t1.run Ex.sum Ex.esAgain).restart Ex.sum id
    Orderly 0 Ex.tM Ex.esTorn ∧ SomeRecord Ex.sum (Ex.tM.run Ex.sum Ex.esTorn).disk ∧ Orderly 13 t1 Ex.esAgain
    ∧ published t1.log.next Ex.esAgain = [⟨2, 7, [3]⟩] ∧ (t1.run Ex.sum Ex.esAgain).persisted = 2
    ∧ (t1.run Ex.sum Ex.esAgain).log.head = 1 ∧ ¬ Readable Ex.sum t2 ⟨2, 7, [3]⟩ := by
  refine ⟨Ex.orderlyM _ rfl ?_ (by decide) 0, ?_, Ex.orderlyM _ (by decide) ?_ (by decide) 13, by decide, by decide, by decide, ?_⟩
  · intro i hi; simp [Ex.esTorn] at hi; exact hi
  · intro s hs
    have h : ((Ex.tM.run Ex.sum Ex.esTorn).disk.segs.all fun s => !(loadLog Ex.sum s.data).isEmpty) = true := by decide
    have := List.all_eq_true.1 h s (List.mem_of_getLast? hs)
    intro h0; rw [h0] at this; cases this
  · intro i hi; simp [Ex.esAgain] at hi; exact hi
  · have h : (((((Ex.tM.run Ex.sum Ex.esTorn).restart Ex.sum id).run Ex.sum Ex.esAgain).restart Ex.sum id).step Ex.sum
        (.read 2 1)).2 matches .readReply 0 [] := by decide
    rintro (⟨id, h1⟩ | ⟨h1, _⟩)
    · simp only [h1] at h; revert h; simp
    · simp only [h1] at h; cases h

/-! ### C59: groups after a restart -/

/-- **C59 does not hold** in full: progress is saved although the acknowledged message is not yet flushed.  After the
restart number 1 is given to a new message; it can be read, but the group is not given it. -/
theorem C59_violated :
    let t := (Ex.tM.run Ex.sum Ex.esAcked).restart Ex.sum id
    let es : List Ev := [.publish 20 [7], .send 0, .join Ex.g Ex.k2 Ex.c2, .fetch Ex.g Ex.c2 1 9 false]
    Orderly 0 Ex.tM Ex.esAcked
    ∧ ((t.run Ex.sum es).step Ex.sum (.read 1 9)).2 matches .readReply _ [⟨1, 20, [7]⟩]
    ∧ ((t.run Ex.sum es).step Ex.sum (.attempt 0 21)).2 matches .fetched _ (.ok []) := by
  refine ⟨Ex.orderlyM _ rfl ?_ (by decide) 0, by decide, by decide⟩
  intro i hi; simp [Ex.esAcked] at hi; exact hi

/-- **C59**, the part that holds: the group goes on behind its saved progress.  In every history without a seek of the
group each message above the saved progress that was in the log when the run began is owed to the group: it is never
skipped, and it is only dropped if retention has removed it.  (`C42_tracked`: what the observer calls fresh is what the
group will deliver.) -/
theorem C59_not_skipped_partial (crc : Bytes → Nat) (cfg : Cfg) (lossy : Bytes → Str) (d : Disk) (b : Bytes) (name : Str)
    (saved : Nat) (hb : d.groups = some b) (hsaved : mget (loadGroups crc lossy b) name = some saved) (es : List Ev)
    (hns : NoSeek name es) (s : Nat) (hs : saved < s) (hhead : (Topic.build crc cfg lossy d).log.head ≤ s) :
    (viewAfter crc (Topic.build crc cfg lossy d) name es).fate s ≠ .skipped
    ∧ ((viewAfter crc (Topic.build crc cfg lossy d) name es).fate s = .removed →
        ∃ head, (Ev.retainDone, Out.retained head) ∈ (Topic.build crc cfg lossy d).trace crc es ∧ s < head) := by
  have hgrp : mget (Topic.build crc cfg lossy d).groups name
      = some (Group.restore saved (Topic.build crc cfg lossy d).log.head cfg.maxPending cfg.ackWait cfg.maxDeliveries) := by
    have key : ∀ (l : List (Str × Nat)) (F : Nat → Group), mget (l.map (fun e => (e.1, F e.2))) name = (mget l name).map F := by
      intro l F
      induction l with
      | nil => rfl
      | cons x l ih =>
        simp only [List.map_cons, mget_cons]
        split
        · rfl
        · exact ih
    simp only [Topic.build, Stream.recover, hb]
    rw [key _ (fun f => Group.restore f _ _ _ _), hsaved]; rfl
  have hstart : (View.start (Topic.build crc cfg lossy d) name).known = true
      ∧ (View.start (Topic.build crc cfg lossy d) name).fate s = .fresh := by
    simp only [View.start, hgrp, mhas, Group.restore]
    refine ⟨rfl, ?_⟩
    rw [if_pos (by omega)]
  -- the observer, step by step
  have hfold : ∀ (max wait : Nat) (ms : List Msg) (c : Str) (now : Nat) (F : Nat → Fate), F s ≠ .skipped →
      ((deliveries c now ms).foldl (fates max wait) F) s ≠ .skipped
      ∧ (((deliveries c now ms).foldl (fates max wait) F) s = .removed → F s = .removed) := by
    intro max wait ms
    induction ms with
    | nil => intro c now F h; exact ⟨h, fun h => h⟩
    | cons m ms ih =>
      intro c now F h
      have h1 : fates max wait F (.delivered c now m.seq) s ≠ .skipped := by
        simp only [fates, Fate.step]; split
        · intro h; cases h
        · exact h
      obtain ⟨i1, i2⟩ := ih c now (fates max wait F (.delivered c now m.seq)) h1
      refine ⟨i1, fun hr => ?_⟩
      have := i2 hr
      simp only [fates, Fate.step] at this
      split at this
      · cases this
      · exact this
  have hone : ∀ (max wait : Nat) (v : View) (x : Ev × Out), v.known = true → v.fate s ≠ .skipped →
      (∀ b, x.1 ≠ .seek name b) →
      (v.step max wait name x).known = true ∧ (v.step max wait name x).fate s ≠ .skipped
      ∧ ((v.step max wait name x).fate s = .removed → v.fate s = .removed ∨ ∃ head, x = (.retainDone, .retained head) ∧ s < head) := by
    intro max wait v x hk hf hsk
    obtain ⟨e, o⟩ := x
    have hrel : ∀ f : Fate, f ≠ .skipped → f.release max ≠ .skipped ∧ (f.release max = .removed → f = .removed) := by
      intro f hf
      cases f <;> simp only [Fate.release] <;> first | (split <;> simp) | simp_all
    have hleft : ∀ who, (v.obs max wait [.left who]).fate s ≠ .skipped
        ∧ ((v.obs max wait [.left who]).fate s = .removed → v.fate s = .removed) := by
      intro who
      simp only [View.obs, List.foldl_cons, List.foldl_nil, fates]
      generalize v.fate s = fs at hf
      cases fs <;> simp only [Fate.step] <;> first | exact ⟨hf, fun h => h⟩ | skip
      split
      · exact hrel _ (by simp)
      · exact ⟨by simp, by simp⟩
    have hans : ∀ now, (v.answer max wait name now o).known = true ∧ (v.answer max wait name now o).fate s ≠ .skipped
        ∧ ((v.answer max wait name now o).fate s = .removed → v.fate s = .removed) := by
      intro now
      unfold View.answer
      split
      · split
        · exact ⟨hk, hfold _ _ _ _ _ _ hf⟩
        · exact ⟨hk, hf, fun h => h⟩
      · exact ⟨hk, hf, fun h => h⟩
    cases e with
    | publish ts p => exact ⟨hk, hf, fun h => .inl h⟩
    | join g conn c =>
      simp only [View.step]
      split
      · exact ⟨rfl, by simp only [hk]; exact hf, by simp only [hk]; exact fun h => .inl h⟩
      · exact ⟨hk, hf, fun h => .inl h⟩
    | leave g c gen order =>
      cases o <;> simp only [View.step] <;> try exact ⟨hk, hf, fun h => .inl h⟩
      split
      · exact ⟨hk, (hleft _).1, fun h => .inl ((hleft _).2 h)⟩
      · exact ⟨hk, hf, fun h => .inl h⟩
    | disconnect conn order =>
      simp only [View.step]
      exact ⟨hk, (hleft _).1, fun h => .inl ((hleft _).2 h)⟩
    | attempt id now => exact ⟨(hans now).1, (hans now).2.1, fun h => .inl ((hans now).2.2 h)⟩
    | finish id now => exact ⟨(hans now).1, (hans now).2.1, fun h => .inl ((hans now).2.2 h)⟩
    | ack g c gen s' =>
      cases o <;> simp only [View.step] <;> try exact ⟨hk, hf, fun h => .inl h⟩
      split
      · refine ⟨hk, ?_, ?_⟩ <;> simp only [View.obs, List.foldl_cons, List.foldl_nil, fates, Fate.step]
        · split
          · simp
          · exact hf
        · split
          · intro h; cases h
          · exact fun h => .inl h
      · exact ⟨hk, hf, fun h => .inl h⟩
    | seek g toEnd =>
      simp only [View.step]
      split
      · next hg => exact absurd (by rw [hg]) (hsk toEnd)
      · exact ⟨hk, hf, fun h => .inl h⟩
    | tick now order =>
      simp only [View.step]
      refine ⟨hk, ?_⟩
      simp only [View.obs, List.foldl_cons, List.foldl_nil, fates]
      generalize v.fate s = fs at hf
      cases fs <;> simp only [Fate.step] <;> first | exact ⟨hf, fun h => .inl h⟩ | skip
      split
      · exact ⟨(hrel _ (by simp)).1, fun h => .inl ((hrel _ (by simp)).2 h)⟩
      · exact ⟨by simp, by simp⟩
    | retainDone =>
      cases o <;> simp only [View.step] <;> try exact ⟨hk, hf, fun h => .inl h⟩
      refine ⟨hk, ?_, ?_⟩ <;> simp only [View.obs, List.foldl_cons, List.foldl_nil, fates, Fate.step]
      · split
        · simp
        · exact hf
      · split
        · next hlt => exact fun _ => .inr ⟨_, rfl, hlt⟩
        · exact fun h => .inl h
    | _ => exact ⟨hk, hf, fun h => .inl h⟩
  have hall : ∀ (max wait : Nat) (tr : List (Ev × Out)) (v : View), v.known = true → v.fate s ≠ .skipped →
      (∀ x ∈ tr, ∀ b, x.1 ≠ .seek name b) →
      (v.after max wait name tr).fate s ≠ .skipped
      ∧ ((v.after max wait name tr).fate s = .removed → v.fate s = .removed ∨ ∃ head, (Ev.retainDone, Out.retained head) ∈ tr ∧ s < head) := by
    intro max wait tr
    induction tr with
    | nil => intro v hk hf _; exact ⟨hf, fun h => .inl h⟩
    | cons x tr ih =>
      intro v hk hf hsk
      obtain ⟨a1, a2, a3⟩ := hone max wait v x hk hf (hsk x List.mem_cons_self)
      obtain ⟨b1, b2⟩ := ih _ a1 a2 (fun y hy => hsk y (List.mem_cons_of_mem _ hy))
      refine ⟨b1, fun h => ?_⟩
      rcases b2 h with h | ⟨hd, h1, h2⟩
      · rcases a3 h with h | ⟨hd, h1, h2⟩
        · exact .inl h
        · exact .inr ⟨hd, by rw [h1]; exact List.mem_cons_self, h2⟩
      · exact .inr ⟨hd, List.mem_cons_of_mem _ h1, h2⟩
  have htr : ∀ (es : List Ev) (t : Topic), NoSeek name es → ∀ x ∈ t.trace crc es, ∀ b, x.1 ≠ .seek name b := by
    intro es
    induction es with
    | nil => intro t _ x hx; cases hx
    | cons e es ih =>
      intro t hn x hx b
      simp only [Topic.trace, List.mem_cons] at hx
      rcases hx with hx | hx
      · rw [hx]; intro he; exact hn b (by rw [show e = Ev.seek name b from he]; exact List.mem_cons_self)
      · exact ih _ (fun b hb => hn b (List.mem_cons_of_mem _ hb)) x hx b
  obtain ⟨r1, r2⟩ := hall (Topic.build crc cfg lossy d).cfg.maxDeliveries (Topic.build crc cfg lossy d).cfg.ackWait _ _ hstart.1
    (by rw [hstart.2]; simp) (htr es (Topic.build crc cfg lossy d) hns)
  refine ⟨r1, fun h => ?_⟩
  rcases r2 h with h | h
  · rw [hstart.2] at h; cases h
  · exact h

/-- **C59**, the part that holds: if everything up to the saved progress had been flushed when the server stopped
(cleanly), every message published after the restart lies above the saved progress. -/
theorem C59_flushed_partial {crc : Bytes → Nat} {base : Nat} {H : List Msg} {now : Nat} {t : Topic}
    (hst : StartsWith crc base H now t) (es es' : List Ev) (ho : Orderly now t es) (hc : CleanStop crc (t.run crc es).disk)
    (lossy : Bytes → Str) (saved : Nat) (hsaved : saved ≤ (t.run crc es).persisted)
    (m : Msg) (hm : m ∈ published ((t.run crc es).restart crc lossy).log.next es') : saved < m.seq := by
  obtain ⟨hi, hb, f, W, hd⟩ := hst.run es ho
  have hlow := hd.low
  obtain ⟨D, h1, h2, h3⟩ := hd.disk.clean hd.fitsW hd.numW (by omega) hc
  have hs : StartsWith crc f (W.take D) (clockAfter now es) ((t.run crc es).restart crc lossy) := ⟨lossy, _, h3.noWriters, rfl⟩
  have hn := hs.inv.2.1.next
  have key : ∀ (es : List Ev) (n : Nat) (m : Msg), m ∈ published n es → n ≤ m.seq := by
    intro es
    induction es with
    | nil => intro n m h; cases h
    | cons e es ih =>
      intro n m h
      cases e <;> simp only [published] at h <;> try exact ih n m h
      rcases List.mem_cons.1 h with h | h
      · rw [h]; exact Nat.le_refl _
      · have := ih _ m h; omega
  have := key es' _ m hm
  rw [hn, List.length_take] at this
  omega

/-! ### C60: concurrent publishers -/

/-- **C60 does not hold**: of two concurrent publishers the second may reach the storage task first.  The file then holds
message 2 before message 1; when they have left the memory a read returns them in the wrong order; and after a restart
number 2 is given out again. -/
theorem C60_violated :
    let t := Ex.tM.run Ex.sum Ex.esSwap
    t.disk.segs.map (fun s => loadLog Ex.sum s.data) = [[⟨2, 6, [2]⟩, ⟨1, 5, [1]⟩]]
    ∧ ((t.run Ex.sum [.evictLoad, .evictRun, .read 1 9, .storage 13]).step Ex.sum (.readDone 0)).2
        matches .readReply _ [⟨2, 6, [2]⟩, ⟨1, 5, [1]⟩]
    ∧ (((t.restart Ex.sum id).run Ex.sum [.publish 20 [3]]).step Ex.sum (.send 0)).2 matches .published 2 := by decide

/-- **C40 does not hold** for such schedules: message 1 leaves the memory before it is written, because message 2 has
been written and is taken for the end of what is in the files. -/
theorem C40_violated :
    let t := Ex.tM.run Ex.sum [.publish 5 [1], .publish 6 [2], .send 1, .storage 10, .flush 11, .evictLoad, .evictRun]
    t.log.msgs = [⟨2, 6, [2]⟩] ∧ t.disk.segs.map (fun s => loadLog Ex.sum s.data) = [[⟨2, 6, [2]⟩]] ∧ t.disk.headSeq = 1 := by
  decide

/-- **C60**, the part that holds: if concurrent publishers reach the storage task in the order of their numbers, then at
any time (in particular after a crash) the complete records of all segments, taken together, carry consecutive
numbers. -/
theorem C60_partial {crc : Bytes → Nat} {base : Nat} {H : List Msg} {now : Nat} {t : Topic}
    (hst : StartsWith crc base H now t) (es : List Ev) (ho : Orderly now t es) :
    Numbered (t.run crc es).disk.headSeq ((t.run crc es).disk.segs.flatMap (fun s => loadLog crc s.data)) := by
  obtain ⟨hi, hb, f, W, hd⟩ := hst.run es ho
  obtain ⟨D, qs, h1, h2, h3, h4, _⟩ := hd.disk.complete hd.fitsW
  have key : ∀ (ss : List Seg) (qs : List (List Msg)) (g : Nat), Holds crc g ss qs → (∀ m ∈ qs.flatten, Fits m) →
      ss.flatMap (fun s => loadLog crc s.data) = qs.flatten := by
    intro ss
    induction ss with
    | nil =>
      intro qs g h _
      cases qs with
      | nil => rfl
      | cons q qs => exact absurd h (by simp [Holds])
    | cons s ss ih =>
      intro qs g h hf
      cases qs with
      | nil => exact absurd h (by simp [Holds])
      | cons q qs =>
        obtain ⟨_, ⟨torn, hd, ht⟩, h3⟩ := h
        rw [List.flatten_cons] at hf
        rw [List.flatMap_cons, List.flatten_cons, ih qs _ h3 (fun m hm => hf m (List.mem_append_right _ hm)), hd,
          loadLog_records crc (fun m hm => hf m (List.mem_append_left _ hm)), loadLog_torn crc ht, List.append_nil]
  rw [hd.disk.headSeq, key _ _ _ h4 (fun m hm => hd.fitsW m (List.mem_of_mem_take (h3 ▸ hm))), h3]
  exact hd.numW.take D

/-! ### Examples -/

/-- A crash in the middle of a write: message 1 is still there. -/
example : ((Ex.tM.run Ex.sum Ex.esTorn).restart Ex.sum id).log.msgs = [⟨1, 5, [1]⟩]
    ∧ (Ex.tM.run Ex.sum Ex.esTorn).persisted = 1 ∧ (Ex.tM.run Ex.sum Ex.esTorn).disk.segs.map (·.data.length) = [28] := by decide

theorem Ex.cleanAgain (t : Topic) (h : t.disk.segs.all (fun s => !(loadLog sum s.data).isEmpty) = true)
    (h' : t.disk.segs.map (fun s => records sum (loadLog sum s.data)) = t.disk.segs.map (·.data))
    (hf : (t.disk.segs.flatMap (fun s => loadLog sum s.data)).all
      (fun m => decide (m.payload.length < 100 ∧ m.seq < 100 ∧ m.timestamp < 100)) = true) : CleanStop sum t.disk := by
  intro s hs
  have hmem := List.mem_of_getLast? hs
  refine ⟨loadLog sum s.data, ?_, ?_, ?_⟩
  · intro h0
    have := List.all_eq_true.1 h s hmem
    rw [h0] at this; cases this
  · intro m hm
    have := List.all_eq_true.1 hf m (List.mem_flatMap.2 ⟨s, hmem, hm⟩)
    simp only [decide_eq_true_eq] at this
    have e1 : 2 ^ 32 = 4294967296 := by decide
    have e2 : 2 ^ 64 = 18446744073709551616 := by decide
    rw [Fits, e1, e2]
    omega
  · exact (List.map_inj_left.1 h' s hmem).symm

/-- Two runs with a clean stop each: message 1 of the first run is there at the end, in memory or in the files. -/
example : CleanRuns Ex.sum 0 Ex.tL [([.publish 5 [1], .send 0, .storage 10, .flush 11], id),
    ([.publish 6 [2], .send 0, .storage 20, .flush 21], id)] := by
  refine ⟨Ex.orderlyM _ rfl ?_ (by decide) 0, Ex.cleanAgain _ (by decide) (by decide) (by decide), Ex.orderlyM _ (by decide) ?_ (by decide) _, ?_, trivial⟩
  · intro i hi; simp at hi; exact hi
  · intro i hi; simp at hi; exact hi
  · refine Ex.cleanAgain _ ?_ ?_ ?_ <;> decide

end Verif.Stream
