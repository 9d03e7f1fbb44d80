import Verif.Spec.StreamDisk

/-!
# Sizes of segment files: what is claimed

A segment is as long as its file will be once everything written to it has reached the file.
-/

namespace Verif.Stream

/-- The bytes of the segment that have not reached its file. -/
def Disk.unflushed (d : Disk) (start : Nat) : Bytes := (mget d.writers start).getD []

/-- The content of a segment: its file and what is still on its way there. -/
def Disk.content (d : Disk) (s : Seg) : Bytes := s.data ++ d.unflushed s.start

/-- Every segment is at most `max` bytes long, unless it consists of one record. -/
def Disk.Bounded (crc : Bytes → Nat) (max : Nat) (d : Disk) : Prop :=
  ∀ s ∈ d.segs, (d.content s).length ≤ max ∨ ∃ m : Msg, d.content s = record crc m

/-- The length of the newest segment (0: there is none). -/
def Disk.newest (d : Disk) : Nat := (d.segs.getLast?.map (fun s => (d.content s).length)).getD 0

end Verif.Stream
