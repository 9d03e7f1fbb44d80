import Verif.Proofs.StreamFlushFail
import Verif.Props.StreamRestart

/-!
# Properties of a topic whose storage fails (C82)

The storage task of a topic logs or ignores every error of the file system.  `Model/StreamFault.lean` lets any operation of the task
fail, anywhere in a history: the directory cannot be made, a segment cannot be opened, a write or a flush fails after any number of
bytes, the progress of the groups cannot be saved, a segment cannot be read.  `everPublished` are the messages published in the
history (`Spec/StreamFault.lean`).
-/

namespace Verif.Stream

namespace Ex

/-- The file of message 1 cannot be opened; message 2 is written. -/
def esNoOpen : List Topic.FEv :=
  [.ev (.publish 5 [1]), .ev (.send 0), .fault (.noOpen 10), .ev (.publish 6 [2]), .ev (.send 0), .ev (.storage 11), .ev (.flush 12),
   .ev .evictLoad, .ev .evictRun]

/-- Three messages in three segments, only the last one in memory; a read comes while the first segment cannot be opened. -/
def esNoRead : List Topic.FEv :=
  [.ev (.publish 5 [1]), .ev (.send 0), .ev (.publish 6 [2]), .ev (.send 0), .ev (.publish 7 [3]), .ev (.send 0),
   .ev (.storage 10), .ev (.storage 11), .ev (.storage 12), .ev (.flush 13), .ev .evictLoad, .ev .evictRun,
   .ev (.read 1 9), .fault (.noRead [1])]

/-- A record of a message nobody publishes. -/
def forged : Msg := ⟨1, 99, [66]⟩

/-- Of the record of message 1 only its header reaches the file; the payload of message 2 is the record of `forged`. -/
def esForged : List Topic.FEv :=
  [.ev (.publish 5 [0, 0, 0, 0, 0, 0, 0, 0]), .ev (.send 0), .fault (.noWrite 8 10), .ev (.publish 6 (record sum forged)),
   .ev (.send 0), .ev (.publish 7 [3]), .ev (.send 0), .ev (.storage 11), .ev (.storage 12), .ev (.flush 13), .ev .evictLoad, .ev .evictRun]

/-- The same with a crash instead of a failing write. -/
def esForgedCrash : List Topic.FEv :=
  [.ev (.publish 5 [0, 0, 0, 0, 0, 0, 0, 0]), .ev (.send 0), .ev (.storage 10), .ev (.leak 1 8 10), .crash id,
   .ev (.publish 6 (record sum forged)),
   .ev (.send 0), .ev (.publish 7 [3]), .ev (.send 0), .ev (.storage 11), .ev (.storage 12), .ev (.flush 13), .ev .evictLoad, .ev .evictRun]

/-- Three messages; the first flush fails after 7 bytes, saving fails, and a segment cannot be read. -/
def esKeeps : List Topic.FEv :=
  [.ev (.publish 5 [1]), .ev (.send 0), .ev (.publish 6 [2]), .ev (.send 0), .ev (.storage 10), .ev (.storage 10),
   .fault (.noFlush [(1, 7)] 11), .ev .evictLoad, .ev .evictRun, .ev (.save id), .fault .noSave, .ev (.read 1 9), .fault (.noRead [1]),
   .ev (.publish 7 [3]), .ev (.send 0), .ev (.storage 14)]

end Ex

section

variable {crc : Bytes → Nat} {base : Nat} {H : List Msg} {now : Nat} {t : Topic} (hst : StartsWith crc base H now t)
include hst

/-! ### What is delivered has been published -/

/-- **C82** Whatever fails, and however often the server crashes, as long as no file is left with part of a record: a fetch is
answered with messages that have been published, unchanged. -/
theorem C82_fetch_partial (es : List Topic.FEv) (ht : NoTorn crc t es) (hf : ∀ m ∈ everPublished crc t es, Fits m)
    (e : Ev) (q : Query) (ms : List Msg) (ho : ((t.runF crc es).step crc e).2 = .fetched q (.ok ms)) (m : Msg) (hm : m ∈ ms) :
    m ∈ H ++ everPublished crc t es :=
  Stored.fetched (P := (· ∈ H ++ everPublished crc t es))
    (Stored.runF es ((Stored.start hst).mono fun _ h => List.mem_append_left _ h) ht
      fun x hx => ⟨hf x hx, List.mem_append_right _ hx⟩) ho m hm

/-- **C82** The same for the answers of reads. -/
theorem C82_read_partial (es : List Topic.FEv) (ht : NoTorn crc t es) (hf : ∀ m ∈ everPublished crc t es, Fits m)
    (e : Ev) (id : Nat) (ms : List Msg) (ho : ((t.runF crc es).step crc e).2 = .readReply id ms) (m : Msg) (hm : m ∈ ms) :
    m ∈ H ++ everPublished crc t es :=
  Stored.readReply (P := (· ∈ H ++ everPublished crc t es))
    (Stored.runF es ((Stored.start hst).mono fun _ h => List.mem_append_left _ h) ht
      fun x hx => ⟨hf x hx, List.mem_append_right _ hx⟩) ho m hm

/-! ### What is published is kept -/

/-- **C82** If all that fails are flushes of writers that stay open, saves of the progress and reads, nothing is lost: after the next
flush that succeeds every message is in memory, or complete in a segment file and read back from there, or has been removed by
retention. -/
theorem C82_flush_partial (es : List Topic.FEv) (time : Nat) (ho : OrderlyF crc now t (es ++ [.ev (.flush time)]))
    (m : Msg) (hm : m ∈ H ++ everPublished crc t es) :
    let t' := t.runF crc (es ++ [.ev (.flush time)])
    m ∈ t'.log.msgs
      ∨ ((∃ s ∈ t'.disk.segs, m ∈ loadLog crc s.data) ∧ coldRead crc t'.disk.segs m.seq 1 = [m])
      ∨ m.seq < t'.disk.headSeq := by
  obtain ⟨hi, hd, _, _⟩ := hst.inv
  have happ : ∀ (es : List Topic.FEv) (x : List Topic.FEv) (t : Topic), t.runF crc (es ++ x) = (t.runF crc es).runF crc x := by
    intro es x
    induction es with
    | nil => intro t; rfl
    | cons e es ih => intro t; exact ih _
  have hev : ∀ (es : List Topic.FEv) (x : List Topic.FEv) (t : Topic), ∀ m ∈ everPublished crc t es, m ∈ everPublished crc t (es ++ x) := by
    intro es x
    induction es with
    | nil => intro t m hm; simp [everPublished] at hm
    | cons e es ih =>
      intro t m hm
      simp only [everPublished, List.cons_append, List.mem_append] at hm ⊢
      rcases hm with h | h
      · exact .inl h
      · exact .inr (ih _ m h)
  have hfw : ∀ (es x : List Topic.FEv) (n : Nat), ForwardF n (es ++ x) → ForwardF n es := by
    intro es x
    induction es with
    | nil => intro _ _; trivial
    | cons e es ih => intro n h; exact ⟨h.1, ih _ h.2⟩
  obtain ⟨f, W, clock, h1, h2, h3, h4⟩ := FInv.runF es hd.toF hi
    ⟨fun e he => ho.keeps e (List.mem_append_left _ he), fun i hi => ho.inOrder i (List.mem_append_left _ hi),
      fun ha => hfw _ _ _ (ho.clock ha), fun m hm => ho.fits m (hev _ _ _ m hm)⟩
  simp only [happ, Topic.runF, Topic.stepF]
  exact h1.where h2 (fun ha => h4 (by rw [← h3]; exact ha) time (ho.clock (by rw [← h3]; exact ha))) hm

end

/-! ### What does not hold -/

/-- **C82 does not hold**: a segment file that cannot be opened once loses a message that has been answered with its number.
Message 1 is dropped, message 2 is written, both count as written, and message 1 leaves the memory.  Neither the publisher nor a
reader is told; no crash is involved. -/
theorem C82_violated :
    let t := Ex.tM.runF Ex.sum Ex.esNoOpen
    ((Ex.tM.runF Ex.sum [.ev (.publish 5 [1])]).step Ex.sum (.send 0)).2 matches .published 1
    ∧ t.log.msgs = [⟨2, 6, [2]⟩] ∧ t.disk.segs.map (fun s => loadLog Ex.sum s.data) = [[⟨2, 6, [2]⟩]] ∧ t.disk.headSeq = 1 ∧ t.log.head = 1
    ∧ ((t.run Ex.sum [.read 1 9, .storage 13]).step Ex.sum (.readDone 0)).2 matches .readReply _ [⟨2, 6, [2]⟩] := by
  decide

/-- **C82 does not hold** for the groups of such a topic: a group that has not had the lost message is given nothing any more, however
much is published.  (It takes the next number or nothing; message 1 is neither in memory nor in the files.) -/
theorem C82_violated_stuck :
    let t := (Ex.tM.runF Ex.sum Ex.esNoOpen).run Ex.sum [.join Ex.g Ex.k1 Ex.c1, .fetch Ex.g Ex.c1 1 9 false, .attempt 0 14, .storage 15]
    (t.step Ex.sum (.finish 0 15)).2 matches .fetched _ (.ok [])
    ∧ ((t.run Ex.sum [.finish 0 15, .publish 16 [3], .send 0, .storage 17, .flush 18, .fetch Ex.g Ex.c1 1 9 false, .attempt 1 19,
        .storage 20]).step Ex.sum (.finish 1 21)).2 matches .fetched _ (.ok []) := by
  decide

/-- **C82 does not hold** for reads: while one segment cannot be opened its messages are left out of the answer, although they are
there; nothing in the answer tells so. -/
theorem C82_violated_read :
    let t := Ex.tL.runF Ex.sum Ex.esNoRead
    (t.step Ex.sum (.readDone 0)).2 matches .readReply _ [⟨2, 6, [2]⟩, ⟨3, 7, [3]⟩]
    ∧ ((t.run Ex.sum [.read 1 9, .storage 15]).step Ex.sum (.readDone 1)).2
        matches .readReply _ [⟨1, 5, [1]⟩, ⟨2, 6, [2]⟩, ⟨3, 7, [3]⟩] := by
  decide

/-- **C82 does not hold** for what is delivered if a record is written in part: after the torn record the reader takes the payload of
another message for records, and delivers a message nobody has published. -/
theorem C82_violated_forged :
    let t := Ex.tM.runF Ex.sum Ex.esForged
    Ex.forged ∉ everPublished Ex.sum Ex.tM Ex.esForged
    ∧ ((t.run Ex.sum [.read 1 9, .storage 14]).step Ex.sum (.readDone 0)).2 matches .readReply _ (⟨1, 99, [66]⟩ :: _) := by
  decide

/-- **C82 does not hold** after a crash at such a point either: no operation has to fail. -/
theorem C82_violated_torn :
    let t := Ex.tM.runF Ex.sum Ex.esForgedCrash
    Ex.forged ∉ everPublished Ex.sum Ex.tM Ex.esForgedCrash
    ∧ ((t.run Ex.sum [.read 1 9, .storage 14]).step Ex.sum (.readDone 0)).2 matches .readReply _ (⟨1, 99, [66]⟩ :: _) := by
  decide

/-! ### The hypotheses can be met -/

theorem Ex.orderlyKeeps : OrderlyF Ex.sum 0 Ex.tM (Ex.esKeeps ++ [.ev (.flush 15)]) := by
  refine ⟨fun e he => ?_, fun i hi => ?_, fun ha => absurd rfl ha, fun m hm => ?_⟩
  · simp only [Ex.esKeeps, List.cons_append, List.nil_append, List.mem_cons, List.not_mem_nil, or_false] at he
    rcases he with rfl | rfl | rfl | rfl | rfl | rfl | rfl | rfl | rfl | rfl | rfl | rfl | rfl | rfl | rfl | rfl | rfl <;> trivial
  · simp [Ex.esKeeps] at hi; exact hi
  · have h : everPublished Ex.sum Ex.tM (Ex.esKeeps ++ [.ev (.flush 15)]) = [⟨1, 5, [1]⟩, ⟨2, 6, [2]⟩, ⟨3, 7, [3]⟩] := by decide
    rw [h] at hm
    simp only [List.mem_cons, List.not_mem_nil, or_false] at hm
    rcases hm with rfl | rfl | rfl <;> simp [Fits]

/-- After the failing flush message 1 has left the memory and its record is not complete in the file; after the next one it is. -/
example : (1 ∉ ((Ex.tM.runF Ex.sum (Ex.esKeeps.take 9)).log.msgs.map (·.seq)))
    ∧ coldRead Ex.sum (Ex.tM.runF Ex.sum (Ex.esKeeps.take 9)).disk.segs 1 1 = []
    ∧ coldRead Ex.sum (Ex.tM.runF Ex.sum (Ex.esKeeps ++ [.ev (.flush 15)])).disk.segs 1 1 = [⟨1, 5, [1]⟩] := by decide

example : ((⟨1, 5, [1]⟩ : Msg) ∈ (Ex.tM.runF Ex.sum (Ex.esKeeps ++ [.ev (.flush 15)])).log.msgs)
    ∨ ((∃ s ∈ (Ex.tM.runF Ex.sum (Ex.esKeeps ++ [.ev (.flush 15)])).disk.segs, (⟨1, 5, [1]⟩ : Msg) ∈ loadLog Ex.sum s.data)
      ∧ coldRead Ex.sum (Ex.tM.runF Ex.sum (Ex.esKeeps ++ [.ev (.flush 15)])).disk.segs 1 1 = [⟨1, 5, [1]⟩])
    ∨ 1 < (Ex.tM.runF Ex.sum (Ex.esKeeps ++ [.ev (.flush 15)])).disk.headSeq :=
  C82_flush_partial Ex.startsM Ex.esKeeps 15 Ex.orderlyKeeps _ (by decide)

/-- A failing open, a crash with whole files, then a read. -/
example : ∀ m ∈ ([⟨2, 6, [2]⟩] : List Msg), m ∈ [] ++ everPublished Ex.sum Ex.tM (Ex.esNoOpen ++ [.crash id]) := by
  refine C82_read_partial Ex.startsM (Ex.esNoOpen ++ [.crash id]) ?_ ?_ (.read 2 9) 0 [⟨2, 6, [2]⟩] ?_
  · have hd : (Ex.tM.runF Ex.sum Ex.esNoOpen).disk.segs.map (·.data) = [records Ex.sum [⟨2, 6, [2]⟩]] := by decide
    refine ⟨trivial, trivial, trivial, trivial, trivial, trivial, trivial, trivial, trivial, ?_, trivial⟩
    intro s hs
    have : s.data ∈ (Ex.tM.runF Ex.sum Ex.esNoOpen).disk.segs.map (·.data) := List.mem_map_of_mem hs
    rw [hd, List.mem_singleton] at this
    exact ⟨_, by simp [Fits], this⟩
  · intro m hm
    have h : everPublished Ex.sum Ex.tM (Ex.esNoOpen ++ [.crash id]) = [⟨1, 5, [1]⟩, ⟨2, 6, [2]⟩] := by decide
    rw [h] at hm
    simp only [List.mem_cons, List.not_mem_nil, or_false] at hm
    rcases hm with rfl | rfl <;> simp [Fits]
  · rfl

end Verif.Stream
