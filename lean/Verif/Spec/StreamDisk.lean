import Verif.Spec.StreamGroup

/-!
# Specification: what is in the files of a topic
-/

namespace Verif.Stream

/-- A message that fits into a record: 32 bit length, 64 bit sequence number and timestamp. -/
def Fits (m : Msg) : Prop := 16 + m.payload.length < 2 ^ 32 ∧ m.seq < 2 ^ 64 ∧ m.timestamp < 2 ^ 64

/-- The records of a list of messages, one after the other. -/
def records (crc : Bytes → Nat) (ms : List Msg) : Bytes := ms.flatMap (record crc)

/-- The list carries the sequence numbers `first`, `first + 1`, … -/
def Numbered (first : Nat) (ms : List Msg) : Prop := ∀ i m, ms[i]? = some m → m.seq = first + i

/-- The names of segment files with these contents, the first one starting with message `first`. -/
def starts (first : Nat) : List (List Msg) → List Nat
  | [] => []
  | p :: ps => first :: starts (first + p.length) ps

/-- Segment files with the contents `parts`: each but the last holds at least one message. -/
structure Files (crc : Bytes → Nat) (first : Nat) (parts : List (List Msg)) (segs : List Seg) : Prop where
  starts : segs.map (·.start) = starts first parts
  data : segs.map (·.data) = parts.map (records crc)
  nonempty : ∀ p ∈ parts.dropLast, p ≠ []

/-- The files of a topic are in order: complete records of consecutively numbered messages, the newest file holding at
least one; the first message is number `base`.  `aged`: if modification times matter, they are in order, and none is later
than `now`. -/
structure InFiles (crc : Bytes → Nat) (aged : Prop) (base : Nat) (H : List Msg) (now : Nat) (d : Disk) : Prop where
  files : ∃ parts, Files crc base parts d.segs ∧ parts.flatten = H ∧ parts.getLast? ≠ some [] ∧ (parts = [] → base = 1)
  base1 : 1 ≤ base
  numbered : Numbered base H
  fits : ∀ m ∈ H, Fits m
  times : aged → d.segs.Pairwise (fun x y => x.mtime ≤ y.mtime)
  clock : aged → ∀ s ∈ d.segs, s.mtime ≤ now

/-- A topic at the start of a run of the server, with the messages `H` in its files (a new topic: `base = 1`,
`H = []`). -/
def StartsWith (crc : Bytes → Nat) (base : Nat) (H : List Msg) (now : Nat) (t : Topic) : Prop :=
  ∃ lossy d, InFiles crc (t.cfg.retention.maxAge ≠ none) base H now d ∧ t = Topic.build crc t.cfg lossy d

/-- The time at which a step of the storage task takes place. -/
def Ev.time : Ev → Option Nat
  | .storage now => some now
  | .flush now => some now
  | .leak _ _ now => some now
  | .closeHandle _ now => some now
  | _ => none

/-- The clock of the storage task does not go backwards. -/
def Forward (now : Nat) : List Ev → Prop
  | [] => True
  | e :: es => now ≤ e.time.getD now ∧ Forward (e.time.getD now) es

/-- A history in which concurrent publishers hand their messages to the storage task in the order of the sequence
numbers, the messages fit into records, and, if there is an age limit, the clock does not go backwards. -/
structure Orderly (now : Nat) (t : Topic) (es : List Ev) : Prop where
  inOrder : ∀ i, Ev.send i ∈ es → i = 0
  clock : t.cfg.retention.maxAge ≠ none → Forward now es
  fits : ∀ m ∈ published t.log.next es, Fits m

/-- A read request for message `m` of an idle topic returns it, at once or after the storage task has looked into the
files. -/
def Readable (crc : Bytes → Nat) (t : Topic) (m : Msg) : Prop :=
  (∃ id, (t.step crc (.read m.seq 1)).2 = .readReply id [m])
  ∨ ((t.step crc (.read m.seq 1)).2 = .none
    ∧ ∀ time, ((t.run crc [.read m.seq 1, .storage time]).step crc (.readDone t.nextOp)).2 = .readReply t.nextOp [m])

/-- The newest segment file holds at least one complete record. -/
def SomeRecord (crc : Bytes → Nat) (d : Disk) : Prop := ∀ s, d.segs.getLast? = some s → loadLog crc s.data ≠ []

/-- The newest segment file consists of complete records, at least one (no write was cut off). -/
def CleanStop (crc : Bytes → Nat) (d : Disk) : Prop :=
  ∀ s, d.segs.getLast? = some s → ∃ ms, ms ≠ [] ∧ (∀ m ∈ ms, Fits m) ∧ s.data = records crc ms

/-- Several runs of the server, each ended by a crash and followed by a restart. -/
def Topic.lives (crc : Bytes → Nat) : Topic → List (List Ev × (Bytes → Str)) → Topic
  | t, [] => t
  | t, (es, lossy) :: rs => Topic.lives crc ((t.run crc es).restart crc lossy) rs

/-- The time at which a run ends. -/
def clockAfter (now : Nat) : List Ev → Nat
  | [] => now
  | e :: es => clockAfter (e.time.getD now) es

/-- Each of the runs is orderly and ends with a clean stop. -/
def CleanRuns (crc : Bytes → Nat) : Nat → Topic → List (List Ev × (Bytes → Str)) → Prop
  | _, _, [] => True
  | now, t, (es, lossy) :: rs =>
    Orderly now t es ∧ CleanStop crc (t.run crc es).disk
      ∧ CleanRuns crc (clockAfter now es) ((t.run crc es).restart crc lossy) rs

end Verif.Stream
