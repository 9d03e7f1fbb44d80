import Verif.Proofs.StreamRead
import Verif.Proofs.StreamAny
import Verif.Props.StreamFiles

/-!
# Properties of the log (C39, C40, C41, C46)

`t` is a topic at the start of a run of the server with the messages `H` in its files, the first of them number `base`
(`StartsWith`; a new topic: `base = 1`, `H = []`).  `es` is a history; `H ++ published t.log.next es` is everything that
has ever been in the log from `base` on.  `Orderly`: concurrent publishers reach the storage task in order, the clock
does not go backwards if there is an age limit (`Spec/StreamDisk.lean`).
-/

namespace Verif.Stream

namespace Ex

/-- Segments for one message each, one message in memory. -/
def cfgL : Cfg :=
  { softLimit := 1, maxSegment := 30, retention := ⟨none, some 60⟩, maxPending := 3, ackWait := 10, maxDeliveries := 2 }

def tL : Topic := Topic.fresh sum cfgL

theorem startsL : StartsWith sum 1 [] 0 tL := by
  refine ⟨id, { segs := [], writers := [], groups := none }, ⟨⟨[], ⟨rfl, rfl, by simp⟩, rfl, by simp, fun _ => rfl⟩,
    by decide, ?_, by simp, by simp, by simp⟩, rfl⟩
  intro i m h; simp at h

/-- Three messages are written and flushed; two of them leave the memory. -/
def esL : List Ev :=
  [.publish 5 [1], .send 0, .publish 6 [2], .send 0, .publish 7 [3], .publish 8 [4], .send 0, .send 0,
   .storage 10, .storage 11, .storage 12, .storage 12, .flush 13, .evictLoad, .evictRun]

/-- Size retention removes the two oldest segments. -/
def esR : List Ev := [.retainSend, .storage 14]

theorem orderlyL (es : List Ev) (h : ∀ i, Ev.send i ∈ es → i = 0) (hf : ∀ m ∈ published 1 es, Fits m) :
    Orderly 0 tL es := ⟨h, fun ha => absurd rfl ha, hf⟩

theorem orderlyLR : Orderly 0 tL (esL ++ (.read 1 2 :: esR)) := by
  refine orderlyL _ (fun i hi => ?_) (fun m hm => ?_)
  · simp [esL, esR] at hi; exact hi
  · simp [esL, esR, published] at hm
    rcases hm with rfl | rfl | rfl | rfl <;> simp [Fits]

end Ex

section

variable {crc : Bytes → Nat} {base : Nat} {H : List Msg} {now : Nat} {t : Topic} (hst : StartsWith crc base H now t)
include hst

/-! ### C39: the log is immutable and readable -/

/-- **C39** Everything that has been in the log carries consecutive numbers. -/
theorem C39_numbered (es : List Ev) : Numbered base (H ++ published t.log.next es) := by
  obtain ⟨h1, h2, _, _⟩ := hst.inv
  have key : ∀ (es : List Ev) (n : Nat), Numbered n (published n es) := by
    intro es
    induction es with
    | nil => intro n i m h; simp [published] at h
    | cons e es ih =>
      intro n
      cases e <;> simp only [published] <;> try exact ih n
      intro i m h
      cases i with
      | zero => simp only [List.getElem?_cons_zero, Option.some.injEq] at h; rw [← h]; rfl
      | succ i =>
        simp only [List.getElem?_cons_succ] at h
        have := ih (n + 1) i m h
        omega
  intro i m h
  by_cases hi : i < H.length
  · rw [List.getElem?_append_left hi] at h
    exact h2.num i m h
  · rw [List.getElem?_append_right (by omega)] at h
    have := key es _ _ _ h
    rw [h2.next] at this
    omega

/-- **C39** A read that is answered at once returns the messages that follow its position (or, if retention has removed
that position, the start of the log), in order and without gaps, up to its limit; in every history. -/
theorem C39_read_now (es : List Ev) (fromSeq limit id : Nat) (ms : List Msg)
    (h : ((t.run crc es).step crc (.read fromSeq limit)).2 = .readReply id ms) :
    ms = ((H ++ published t.log.next es).drop (max fromSeq (t.run crc es).log.head - base)).take limit := by
  obtain ⟨h1, h2, _, _⟩ := hst.inv
  exact (MemOk.run ⟨h2.mem, h2.next⟩ h1 crc es).read (h1.run crc es) h

/-- **C39** A read that has to wait for the files (`es2` happens in the meantime) returns messages that follow its
position, in order and without gaps, at most as many as asked for; at least one if its position has not been removed by
retention in the meantime.  If retention has removed its position, the answer starts at the oldest message that was
left. -/
theorem C39_from_files_partial (es1 es2 : List Ev) (fromSeq limit id : Nat) (ms : List Msg)
    (ho : Orderly now t (es1 ++ (.read fromSeq limit :: es2)))
    (hwait : ((t.run crc es1).step crc (.read fromSeq limit)).2 = .none)
    (h : ((t.run crc (es1 ++ (.read fromSeq limit :: es2))).step crc (.readDone (t.run crc es1).nextOp)).2
      = .readReply id ms) :
    ∃ s, max fromSeq (t.run crc es1).log.head ≤ s
      ∧ s ≤ max (max fromSeq (t.run crc es1).log.head) (t.run crc (es1 ++ (.read fromSeq limit :: es2))).disk.headSeq
      ∧ ms <+: (H ++ published t.log.next (es1 ++ (.read fromSeq limit :: es2))).drop (s - base)
      ∧ ms.length ≤ limit
      ∧ (s = max fromSeq (t.run crc es1).log.head → 0 < limit → ms ≠ []) := by
  obtain ⟨hi0, hd0, _, _⟩ := hst.inv
  have hids : IdsOk (t.run crc es1) := by
    obtain ⟨lossy, d, _, ht⟩ := hst
    rw [ht]
    exact (IdsOk.build crc t.cfg lossy d).run crc es1
  have hpre : es1 ++ (.read fromSeq limit :: es2) = (es1 ++ [.read fromSeq limit]) ++ es2 := by simp
  obtain ⟨f1, W1, _, _, hd1⟩ := hd0.run hi0 es1 ho.prefix
  have hi1 := hi0.run crc es1
  have hr1 := ReadOk.start hd1 hi1 hids hwait
  rw [hpre] at ho h ⊢
  have hn1 : (t.run crc es1).log.next = t.log.next + (published t.log.next es1).length := by
    rw [hd1.next, hd0.next, List.length_append]; omega
  obtain ⟨f2, W2, ⟨hf12, _⟩, _, hd2⟩ := hd1.step hi1 (.read fromSeq limit) (fun i h => by cases h)
    (fun _ => Nat.le_refl _) (fun m hm => by simp [published] at hm)
  rw [show (Ev.read fromSeq limit).time = none from rfl, Option.getD_none] at hd2
  have hi2 := hi1.step crc (.read fromSeq limit)
  have hrun : t.run crc (es1 ++ [.read fromSeq limit]) = ((t.run crc es1).step crc (.read fromSeq limit)).1 := by
    rw [run_append]; rfl
  have hpub : published t.log.next (es1 ++ [.read fromSeq limit]) = published t.log.next es1 := by
    rw [published_append]; simp [published]
  have hclk : clockAfter now (es1 ++ [.read fromSeq limit]) = clockAfter now es1 := by
    rw [clockAfter_append]; rfl
  have ho2 : Orderly (clockAfter now es1) ((t.run crc es1).step crc (.read fromSeq limit)).1 es2 := by
    have := ho.suffix (crc := crc) (a := es1 ++ [.read fromSeq limit]) (b := es2) (by
      rw [hrun, hd2.next, hpub]
      simp only [published, List.append_nil]
      rw [hd0.next, List.length_append]; omega)
    rwa [hrun, hclk] at this
  have hr2 : ReadOk base (t.run crc es1).nextOp (max fromSeq (t.run crc es1).log.head) limit
      ((H ++ published t.log.next es1) ++ published (t.run crc es1).log.next [.read fromSeq limit])
      ((t.run crc es1).step crc (.read fromSeq limit)).1 f2 := by
    refine ⟨hr1.old, hr1.flushed, hr1.asked, fun ms hm => ?_⟩
    obtain ⟨s, a1, a2, a3, a4, a5⟩ := hr1.answer ms hm
    exact ⟨s, a1, by omega, prefix_drop_append a3, a4, a5⟩
  obtain ⟨f3, W3, hP, hd3, _⟩ := DInv.induct
    (P := ReadOk base (t.run crc es1).nextOp (max fromSeq (t.run crc es1).log.head) limit) hd2 hi2 hr2
    (fun H' clock t f W e f' W' clock' hp hd hi hf hper hd' => hp.step hd e hf hper _) es2 ho2
  have hpub3 : (H ++ published t.log.next es1 ++ published (t.run crc es1).log.next [.read fromSeq limit]) ++
      published ((t.run crc es1).step crc (.read fromSeq limit)).1.log.next es2
      = H ++ published t.log.next (es1 ++ [.read fromSeq limit] ++ es2) := by
    rw [published_append, hpub]
    have : ((t.run crc es1).step crc (.read fromSeq limit)).1.log.next = t.log.next + (published t.log.next es1).length := by
      rw [hd2.next]
      simp only [published, List.append_nil]
      rw [hd0.next, List.length_append]; omega
    rw [this]
    simp [published]
  rw [hpub3] at hP hd3
  have hrun3 : t.run crc (es1 ++ [.read fromSeq limit] ++ es2)
      = ((t.run crc es1).step crc (.read fromSeq limit)).1.run crc es2 := by
    rw [run_append, hrun]
  rw [hrun3] at h ⊢
  have hm : mget (((t.run crc es1).step crc (.read fromSeq limit)).1.run crc es2).reads (t.run crc es1).nextOp = some (some ms) := by
    simp only [Topic.step] at h
    split at h
    · next xs hx =>
      simp only [Out.readReply.injEq] at h
      rw [← h.2]; exact hx
    · cases h
  obtain ⟨s, a1, a2, a3, a4, a5⟩ := hP.answer ms hm
  exact ⟨s, a1, by rw [hd3.disk.headSeq]; exact a2, a3, a4, a5⟩

/-- **C39** Whatever a fetch delivers, from memory or from the files, is a message of the log with its original number,
time and payload; also when concurrent publishers reach the storage task in any order.  (Messages that do not fit into a
record, see `Fits`, are excluded.) -/
theorem C39_fetch (es : List Ev) (e : Ev) (hf : ∀ m ∈ published t.log.next es, Fits m) (q : Query) (ms : List Msg)
    (h : ((t.run crc es).step crc e).2 = .fetched q (.ok ms)) : ∀ m ∈ ms, m ∈ H ++ published t.log.next es :=
  (((Stored.start hst).mono (fun _ hm => List.mem_append_left _ hm)).run es
    (fun m hm => ⟨hf m hm, List.mem_append_right H hm⟩)).fetched h

/-- **C39** The same for reads. -/
theorem C39_read (es : List Ev) (e : Ev) (hf : ∀ m ∈ published t.log.next es, Fits m) (id : Nat) (ms : List Msg)
    (h : ((t.run crc es).step crc e).2 = .readReply id ms) : ∀ m ∈ ms, m ∈ H ++ published t.log.next es :=
  (((Stored.start hst).mono (fun _ hm => List.mem_append_left _ hm)).run es
    (fun m hm => ⟨hf m hm, List.mem_append_right H hm⟩)).readReply h

/-! ### C40: eviction loses nothing -/

omit hst in
theorem DInv.where {clock f : Nat} {W : List Msg} (hd : DInv crc base H clock t f W) (hi : TInv t) {m : Msg} (hm : m ∈ H) :
    m ∈ t.log.msgs ∨ ((∃ s ∈ t.disk.segs, m ∈ loadLog crc s.data) ∧ coldRead crc t.disk.segs m.seq 1 = [m])
      ∨ m.seq < t.disk.headSeq := by
  rw [hd.disk.headSeq]
  by_cases hf : m.seq < f
  · exact .inr (.inr hf)
  have hnum := hd.num
  have hlow := hd.low
  obtain ⟨i, hi', hmi⟩ := List.getElem_of_mem hm
  have hseq := hnum i m (by rw [List.getElem?_eq_getElem hi', hmi])
  by_cases hr : t.log.ramStart ≤ m.seq
  · left
    obtain ⟨x, hx⟩ := hd.mem
    have hlen := hi.log.len
    have hnext := hd.next
    have hxl := congrArg List.length hx
    rw [List.length_append] at hxl
    have : m = (x ++ t.log.msgs)[i]'(by rw [hx]; exact hi') := by
      rw [← hmi]; congr 1; exact hx.symm
    rw [List.getElem_append_right (by omega)] at this
    rw [this]; exact List.getElem_mem _
  · right; left
    have h1 := hd.ram
    have h2 := hd.headHigh
    obtain ⟨D, qs, d1, d2, d3, d4, _⟩ := hd.disk.complete hd.fitsW
    have hW : (H.drop (f - base))[m.seq - f]? = some m := by
      rw [List.getElem?_drop, show f - base + (m.seq - f) = i by omega, List.getElem?_eq_getElem hi', hmi]
    have hW' : W[m.seq - f]? = some m := by
      rw [← hd.flow, List.getElem?_append_left (by omega)] at hW; exact hW
    have hT : (W.take D)[m.seq - f]? = some m := by rw [List.getElem?_take, if_pos (by omega)]; exact hW'
    refine ⟨d4.mem (fun x hx => ?_) (d3 ▸ List.mem_of_getElem? hT), ?_⟩
    · rw [d3] at hx; exact hd.fitsW x (List.mem_of_mem_take hx)
    · obtain ⟨D', e1, e2, e3⟩ := hd.disk.coldRead hd.fitsW hd.numW
      have hT' : (W.take D')[m.seq - f]? = some m := by rw [List.getElem?_take, if_pos (by omega)]; exact hW'
      rw [e3, List.take_one, List.head?_drop, hT']
      rfl

/-- **C40** At any time every message that has ever been in the log is in memory, or complete in a segment file and read
back from there, or has been removed by retention (it is older than the first message of the files). -/
theorem C40_nothing_lost_partial (es : List Ev) (ho : Orderly now t es) (m : Msg) (hm : m ∈ H ++ published t.log.next es) :
    m ∈ (t.run crc es).log.msgs
      ∨ ((∃ s ∈ (t.run crc es).disk.segs, m ∈ loadLog crc s.data) ∧ coldRead crc (t.run crc es).disk.segs m.seq 1 = [m])
      ∨ m.seq < (t.run crc es).disk.headSeq := by
  obtain ⟨hi, _, f, W, hd⟩ := hst.run es ho
  exact hd.where hi hm

/-- **C40** A step after which a message is no longer in memory leaves it in the files, unless retention has removed it
there. -/
theorem C40_evict_partial (es : List Ev) (e : Ev) (ho : Orderly now t (es ++ [e])) (m : Msg)
    (h : m ∈ (t.run crc es).log.msgs) (hgone : m ∉ ((t.run crc es).step crc e).1.log.msgs) :
    ((∃ s ∈ ((t.run crc es).step crc e).1.disk.segs, m ∈ loadLog crc s.data)
      ∧ coldRead crc ((t.run crc es).step crc e).1.disk.segs m.seq 1 = [m])
      ∨ m.seq < ((t.run crc es).step crc e).1.disk.headSeq := by
  have hrun : t.run crc (es ++ [e]) = ((t.run crc es).step crc e).1 := by rw [run_append]; rfl
  obtain ⟨_, _, f, W, hd⟩ := hst.run es ho.prefix
  have hm : m ∈ H ++ published t.log.next (es ++ [e]) := by
    rw [published_append, ← List.append_assoc]
    exact List.mem_append_left _ (hd.mem.subset h)
  have := C40_nothing_lost_partial hst (es ++ [e]) ho m hm
  rw [hrun] at this
  rcases this with h | h | h
  · exact absurd h hgone
  · exact .inl h
  · exact .inr h

/-! ### C41: retention in histories -/

/-- **C41** When the storage task applies retention, whole segments are deleted from the old end and the newest one is
kept. -/
theorem C41_prefix (es : List Ev) (time : Nat) (cs : List SCmd) (ho : Orderly now t (es ++ [.storage time]))
    (hc : (t.run crc es).chan = .retention :: cs) :
    (∃ gone, (t.run crc es).disk.segs = gone ++ ((t.run crc es).step crc (.storage time)).1.disk.segs)
      ∧ ((t.run crc es).step crc (.storage time)).1.disk.segs.getLast? = (t.run crc es).disk.segs.getLast?
      ∧ ((t.run crc es).step crc (.storage time)).1.disk.segs
          = retainSegs t.cfg.retention time (t.run crc es).disk.segs := by
  obtain ⟨_, _, f, W, hd⟩ := hst.run es ho.prefix
  have hcfg := run_cfg crc es t
  have hsegs : ((t.run crc es).step crc (.storage time)).1.disk.segs
      = retainSegs t.cfg.retention time (t.run crc es).disk.segs := by
    simp only [Topic.step, hc, Topic.handle, Disk.retain, hcfg]
  rw [hsegs]
  refine ⟨?_, C41_newest_kept _ _ _, rfl⟩
  cases hd.disk with
  | empty h1 => rw [h1]; exact ⟨[], by simp [retainSegs]⟩
  | files pre l pp p buf h1 h2 h3 =>
    rw [h1]
    refine C41_old_end _ _ _ h3.sorted ?_
    cases ha : t.cfg.retention.maxAge with
    | none => exact .inl rfl
    | some a => exact .inr (h3.times (by rw [hcfg, ha]; simp))

/-- **C41** Nothing but retention removes messages: every other step leaves the first message of the files the same. -/
theorem C41_only_retention (es : List Ev) (e : Ev) (ho : Orderly now t (es ++ [e]))
    (he : ∀ time cs, e = .storage time → (t.run crc es).chan ≠ .retention :: cs) :
    ((t.run crc es).step crc e).1.disk.headSeq = (t.run crc es).disk.headSeq := by
  obtain ⟨hi, hd0, _, _⟩ := hst.inv
  obtain ⟨hi', _, f, W, hd⟩ := hst.run es ho.prefix
  have ho2 := ho.suffix (crc := crc) (by rw [hd.next, hd0.next, List.length_append]; omega)
  obtain ⟨f', W', ⟨_, h1⟩, _, h2⟩ := hd.step hi' e (fun i h => ho2.inOrder i (by rw [h]; exact List.mem_singleton_self _))
    (fun ha => (ho2.clock ha).1) ho2.fits
  rw [h2.disk.headSeq, hd.disk.headSeq]
  exact h1 he

/-- **C41** When the retention task has got its outcome, the first readable sequence number is that of the oldest
segment that is left. -/
theorem C41_head (es : List Ev) (ho : Orderly now t es) (h : Nat) (hr : (t.run crc es).retain = .outcome h) :
    ((t.run crc es).step crc .retainDone).1.log.head = (t.run crc es).disk.headSeq := by
  obtain ⟨hi, hb, f, W, hd⟩ := hst.run es ho
  have hh := hd.ret h hr
  subst hh
  have := hd.low
  rw [hd.disk.headSeq]
  simp only [Topic.step, hr, Topic.applyOutcome]
  split
  · simp only [Log.applyHead]; omega
  · next hn => simp only [ne_eq, Decidable.not_not] at hn; exact hn.symm

end

/-! ### C46: the limit, also for answers from the files -/

/-- **C46** No fetch ever returns more messages than it has asked for, whatever is in the files and in every history. -/
theorem C46_limit_always (crc : Bytes → Nat) (cfg : Cfg) (lossy : Bytes → Str) (d : Disk) (es : List Ev) (e : Ev)
    (q : Query) (ms : List Msg)
    (h : (((Topic.build crc cfg lossy d).run crc es).step crc e).2 = .fetched q (.ok ms)) : ms.length ≤ q.limit :=
  fetched_limit ((IdsOk.build crc cfg lossy d).run crc es) h

/-! ### Examples -/

example : (Ex.tL.run Ex.sum Ex.esL).log.msgs = [⟨4, 8, [4]⟩] ∧ (Ex.tL.run Ex.sum Ex.esL).log.ramStart = 4
    ∧ (Ex.tL.run Ex.sum Ex.esL).disk.segs.map (·.start) = [1, 2, 3, 4] := by decide

/-- Answered at once; answered from the files. -/
example : ((Ex.tL.run Ex.sum Ex.esL).step Ex.sum (.read 4 9)).2 matches .readReply 0 [⟨4, 8, [4]⟩] := by decide
example : ((Ex.tL.run Ex.sum Ex.esL).step Ex.sum (.read 1 2)).2 matches .none := by decide
example : ((Ex.tL.run Ex.sum (Ex.esL ++ [.read 1 2, .storage 14])).step Ex.sum (.readDone 0)).2
    matches .readReply 0 [⟨1, 5, [1]⟩, ⟨2, 6, [2]⟩] := by decide
/-- Retention runs before the read gets to the files. -/
example : ((Ex.tL.run Ex.sum (Ex.esL ++ [.retainSend, .read 1 2, .storage 14, .storage 15])).step Ex.sum (.readDone 0)).2
    matches .readReply 0 [⟨3, 7, [3]⟩, ⟨4, 8, [4]⟩] := by decide
example : Orderly 0 Ex.tL (Ex.esL ++ (.read 1 2 :: Ex.esR)) := Ex.orderlyLR
example : ((Ex.tL.run Ex.sum (Ex.esL ++ Ex.esR)).disk.segs.map (·.start)) = [3, 4]
    ∧ (Ex.tL.run Ex.sum (Ex.esL ++ Ex.esR)).retain = .outcome 3
    ∧ (Ex.tL.run Ex.sum (Ex.esL ++ Ex.esR ++ [.retainDone])).log.head = 3 := by decide
/-- A fetch from the files. -/
example : ((Ex.tL.run Ex.sum (Ex.esL ++ [.join [103] [1] [2], .fetch [103] [2] 1 2 false, .attempt 0 20, .storage 20])).step
    Ex.sum (.finish 0 21)).2 matches .fetched _ (.ok [⟨1, 5, [1]⟩, ⟨2, 6, [2]⟩]) := by decide

end Verif.Stream
