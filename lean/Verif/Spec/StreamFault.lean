import Verif.Model.StreamFault
import Verif.Spec.StreamDisk

/-!
# Specification: histories in which the storage fails
-/

namespace Verif.Stream

/-- All messages published in a history, with the numbers they got (a number may be given out again after a crash). -/
def everPublished (crc : Bytes → Nat) : Topic → List Topic.FEv → List Msg
  | _, [] => []
  | t, e :: es =>
    (match e with
      | .ev (.publish ts p) => [{ seq := t.log.next, timestamp := ts, payload := p }]
      | _ => []) ++ everPublished crc (t.stepF crc e).1 es

/-- Every segment file ends with a complete record. -/
def WholeFiles (crc : Bytes → Nat) (segs : List Seg) : Prop :=
  ∀ s ∈ segs, ∃ ms, (∀ m ∈ ms, Fits m) ∧ s.data = records crc ms

/-- No failing write and no crash leaves part of a record in a file: when a writer is lost, its file ends with a complete record. -/
def NoTorn (crc : Bytes → Nat) : Topic → List Topic.FEv → Prop
  | _, [] => True
  | t, e :: es =>
    (match e with
      | .fault (.noWrite ..) | .fault (.noClose ..) =>
        ∀ s ∈ (t.stepF crc e).1.disk.segs, mhas (t.stepF crc e).1.disk.writers s.start = false → ∃ ms, (∀ m ∈ ms, Fits m) ∧ s.data = records crc ms
      | .crash _ => WholeFiles crc t.disk.segs
      | _ => True)
    ∧ NoTorn crc (t.stepF crc e).1 es

/-- A failure after which the bytes are still in memory: a flush that fails while the writer stays open, groups that cannot be saved,
segments that cannot be read. -/
def Topic.FEv.keeps : Topic.FEv → Prop
  | .ev _ => True
  | .fault (.noFlush ..) => True
  | .fault .noSave => True
  | .fault (.noRead _) => True
  | _ => False

/-- The time of a step of the storage task. -/
def Topic.FEv.time : Topic.FEv → Option Nat
  | .ev e => e.time
  | .fault (.noFlush _ now) => some now
  | _ => none

/-- The clock of the storage task does not go backwards. -/
def ForwardF (now : Nat) : List Topic.FEv → Prop
  | [] => True
  | e :: es => now ≤ e.time.getD now ∧ ForwardF (e.time.getD now) es

/-- As `Orderly`, with failures. -/
structure OrderlyF (crc : Bytes → Nat) (now : Nat) (t : Topic) (es : List Topic.FEv) : Prop where
  keeps : ∀ e ∈ es, e.keeps
  inOrder : ∀ i, .ev (.send i) ∈ es → i = 0
  clock : t.cfg.retention.maxAge ≠ none → ForwardF now es
  fits : ∀ m ∈ everPublished crc t es, Fits m

end Verif.Stream
