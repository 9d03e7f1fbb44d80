import Verif.Model.StreamLog

/-!
# Model of a topic's files

`/repo/src/brokers/stream/domain/persistence.rs`.

Files are byte strings.  A segment file is identified by the number in its name (`<start>.log`); formatting and parsing of
the file names is not modelled, nor are foreign files in the topic's directory.  An open `BufWriter<File>` holds bytes
that have been written to it but have not reached the file; `leak` moves any part of them to the file at any time, `flush`
moves all of them.  Reads and file sizes see only what has reached the file.  The checksum is an arbitrary function `crc`.
I/O errors are not modelled: every operation on an existing path succeeds.
-/

namespace Verif.Stream

open Wire (be32 be64 beVal)

/-- `to_be_bytes` of a `u16`. -/
def be16 (v : Nat) : Bytes := [UInt8.ofNat (v / 256 % 256), UInt8.ofNat (v % 256)]

/-! ## Record formats -/

/-- The content of a record: `persistence.rs:392-394`, `399-401`. -/
def content (m : Msg) : Bytes := be64 m.seq ++ be64 m.timestamp ++ m.payload

/-- `persistence.rs:388-402` `serialize_message`. -/
def record (crc : Bytes → Nat) (m : Msg) : Bytes :=
  be32 (8 + 8 + m.payload.length) ++ be32 (crc (content m)) ++ content m

/-- Length, checksum and content of the record at the front of a file: `persistence.rs:415-424`, `541-550`, `576-585`.
`none`: one of the three `read_exact` fails. -/
def takeRecord (b : Bytes) : Option (Nat × Bytes × Bytes) :=
  if b.length < 4 then none
  else if (b.drop 4).length < 4 then none
  else if (b.drop 8).length < beVal (b.take 4) then none
  else some (beVal ((b.drop 4).take 4), (b.drop 8).take (beVal (b.take 4)), (b.drop 8).drop (beVal (b.take 4)))

/-- `persistence.rs:432-436`, `558-562`. -/
def parseContent (c : Bytes) : Msg :=
  { seq := beVal (c.take 8), timestamp := beVal ((c.drop 8).take 8), payload := c.drop 16 }

/-- The loop of `persistence.rs:405-444` `read_log_segment`, at most `n` rounds; `acc` = `msgs`. -/
def readLogN (crc : Bytes → Nat) (start limit : Nat) : Nat → Bytes → List Msg → List Msg
  | 0, _, acc => acc
  | n + 1, b, acc =>
    match takeRecord b with
    | none => acc
    | some (stored, c, rest) =>
      if crc c % 2 ^ 32 ≠ stored then readLogN crc start limit n rest acc
      else if c.length < 16 then readLogN crc start limit n rest acc
      else if start ≤ (parseContent c).seq then
        if limit ≤ (acc ++ [parseContent c]).length then acc ++ [parseContent c]
        else readLogN crc start limit n rest (acc ++ [parseContent c])
      else readLogN crc start limit n rest acc

/-- `persistence.rs:405-444` `read_log_segment`: every round takes at least eight bytes. -/
def readLog (crc : Bytes → Nat) (b : Bytes) (start limit : Nat) : List Msg :=
  readLogN crc start limit (b.length + 1) b []

/-- The loop of `persistence.rs:531-567` `load_segment_file`, at most `n` rounds. -/
def loadLogN (crc : Bytes → Nat) : Nat → Bytes → List Msg
  | 0, _ => []
  | n + 1, b =>
    match takeRecord b with
    | none => []
    | some (stored, c, rest) =>
      if crc c % 2 ^ 32 ≠ stored then []
      else if c.length < 16 then []
      else parseContent c :: loadLogN crc n rest

/-- `persistence.rs:531-567` `load_segment_file`. -/
def loadLog (crc : Bytes → Nat) (b : Bytes) : List Msg := loadLogN crc (b.length + 1) b

/-- The content of an entry of `groups.log`: `persistence.rs:515-517`, `523-525`. -/
def groupContent (name : Str) (floor : Nat) : Bytes := be64 floor ++ be16 (name.length % 2 ^ 16) ++ name

/-- `persistence.rs:508-529` `write_group_entry`: the length of the name is cast to `u16`. -/
def groupEntry (crc : Bytes → Nat) (name : Str) (floor : Nat) : Bytes :=
  be32 (8 + 2 + name.length % 2 ^ 16) ++ be32 (crc (groupContent name floor)) ++ groupContent name floor

/-- `persistence.rs:491-506` `save_groups_file`: the content of the new file (written to a temporary file and renamed). -/
def groupsFile (crc : Bytes → Nat) (groups : List (Str × Nat)) : Bytes :=
  groups.flatMap (fun e => groupEntry crc e.1 e.2)

/-- The loop of `persistence.rs:569-604` `load_groups_file`, at most `n` rounds.  `lossy` = `String::from_utf8_lossy`. -/
def loadGroupsN (crc : Bytes → Nat) (lossy : Bytes → Str) : Nat → Bytes → List (Str × Nat) → List (Str × Nat)
  | 0, _, acc => acc
  | n + 1, b, acc =>
    match takeRecord b with
    | none => acc
    | some (stored, c, rest) =>
      if crc c % 2 ^ 32 ≠ stored then acc
      else if c.length < 10 then loadGroupsN crc lossy n rest acc
      else if (c.drop 10).length < beVal ((c.drop 8).take 2) then loadGroupsN crc lossy n rest acc
      else loadGroupsN crc lossy n rest
        (mset acc (lossy ((c.drop 10).take (beVal ((c.drop 8).take 2)))) (beVal (c.take 8)))

/-- `persistence.rs:569-604` `load_groups_file`. -/
def loadGroups (crc : Bytes → Nat) (lossy : Bytes → Str) (b : Bytes) : List (Str × Nat) :=
  loadGroupsN crc lossy (b.length + 1) b []

/-! ## The directory of a topic -/

/-- A segment file: the number in its name, its content and its modification time. -/
structure Seg where
  start : Nat
  data : Bytes
  mtime : Nat
  deriving DecidableEq, Repr

/-- The files of a topic and the writers that are open on them (`open_files`, `persistence.rs:112`): start of the
segment ↦ bytes not yet in the file. -/
structure Disk where
  segs : List Seg
  writers : List (Nat × Bytes)
  groups : Option Bytes
  deriving DecidableEq, Repr

/-- Creating a file; `find_segments` (`persistence.rs:470-488`) sorts by start, so the list is kept sorted. -/
def insertSeg (s : Seg) : List Seg → List Seg
  | [] => [s]
  | t :: ts => if s.start < t.start then s :: t :: ts else if s.start = t.start then t :: ts else t :: insertSeg s ts

/-- Appending bytes to a file (lost when the file has been unlinked). -/
def writeSeg (start : Nat) (bytes : Bytes) (now : Nat) (segs : List Seg) : List Seg :=
  segs.map (fun s => if s.start = start then { s with data := s.data ++ bytes, mtime := now } else s)

namespace Disk

/-- Part of a writer's buffer reaches the file. -/
def leak (d : Disk) (start n now : Nat) : Disk :=
  match mget d.writers start with
  | none => d
  | some [] => d
  | some (x :: xs) =>
    { d with segs := writeSeg start ((x :: xs).take n) now d.segs
             writers := mset d.writers start ((x :: xs).drop n) }

/-- `BufWriter::flush`. -/
def flush (d : Disk) (start now : Nat) : Disk :=
  match mget d.writers start with
  | none => d
  | some b => d.leak start b.length now

/-- `persistence.rs:245-247` and `274-276`: a writer is flushed and closed. -/
def close (d : Disk) (start now : Nat) : Disk :=
  { d.flush start now with writers := mdel (d.flush start now).writers start }

/-- `persistence.rs:271-282` `get_or_open_writer`.  The eviction of the least recently used writer is a separate event
of the system (`close`). -/
def openWriter (d : Disk) (start now : Nat) : Disk :=
  if mhas d.writers start then d
  else { d with segs := insertSeg { start, data := [], mtime := now } d.segs, writers := mset d.writers start [] }

/-- `writer.write_all`. -/
def write (d : Disk) (start : Nat) (bytes : Bytes) : Disk :=
  { d with writers := mupd d.writers start (· ++ bytes) }

/-- `persistence.rs:285-287`: all writers are flushed. -/
def flushAll (d : Disk) (now : Nat) : Disk := (mkeys d.writers).foldl (fun d s => d.flush s now) d

/-- First segment's start, or 1: `persistence.rs:330`, `336`, `378`, `453`. -/
def headSeq (d : Disk) : Nat := (d.segs.head?.map (·.start)).getD 1

end Disk

/-- `segments.iter().rposition(|s| s.start_seq <= cur)` and `skip(idx)`, `persistence.rs:313-314`. -/
def fromLast (cur : Nat) : List Seg → Option (List Seg)
  | [] => none
  | s :: t =>
    match fromLast cur t with
    | some r => some r
    | none => if s.start ≤ cur then some (s :: t) else none

/-- `(msgs.last().unwrap().seq + 1)` if there is one: `persistence.rs:317-318`. -/
def advanceFrom (cur : Nat) (msgs : List Msg) : Nat := (msgs.getLast?.map (·.seq + 1)).getD cur

/-- The loop of `persistence.rs:314-322`. -/
def coldLoop (crc : Bytes → Nat) : List Seg → Nat → Nat → List Msg
  | [], _, _ => []
  | s :: t, cur, rem =>
    if rem = 0 then []
    else readLog crc s.data cur rem ++
      coldLoop crc t (advanceFrom cur (readLog crc s.data cur rem)) (rem - (readLog crc s.data cur rem).length)

/-- `persistence.rs:302-325` `cold_read`. -/
def coldRead (crc : Bytes → Nat) (segs : List Seg) (fromSeq limit : Nat) : List Msg :=
  match segs with
  | [] => []
  | first :: _ =>
    match fromLast (max fromSeq first.start) segs with
    | none => []
    | some r => coldLoop crc r (max fromSeq first.start) limit

/-- `options.rs:8-11` `RetentionOptions`. -/
structure Retention where
  maxAge : Option Nat
  maxBytes : Option Nat
  deriving DecidableEq, Repr

/-- `persistence.rs:340-360`: what is left after the age check (`modified < now - max_age`). -/
def ageKeep (maxAge now : Nat) (segs : List Seg) : List Seg :=
  segs.filter (fun s => decide (some s.start = segs.getLast?.map (·.start)) || !decide (s.mtime + maxAge < now))

/-- `persistence.rs:362-376`: what is left after the size check; `total` = `current_total`. -/
def sizeKeep (maxBytes : Nat) : Nat → List Seg → List Seg
  | _, [] => []
  | total, s :: t =>
    if maxBytes < total && !t.isEmpty then sizeKeep maxBytes (total - s.data.length) t else s :: t

/-- `persistence.rs:364-366`. -/
def totalSize (segs : List Seg) : Nat := (segs.map (·.data.length)).sum

/-- `persistence.rs:328-376`: the segments that survive. -/
def retainSegs (r : Retention) (now : Nat) (segs : List Seg) : List Seg :=
  if segs.length ≤ 1 then segs
  else
    let aged := match r.maxAge with
      | none => segs
      | some a => ageKeep a now segs
    match r.maxBytes with
    | none => aged
    | some b => sizeKeep b (totalSize aged) aged

/-- `persistence.rs:327-380` `apply_retention`: the files of the other segments are removed and their writers
dropped. -/
def Disk.retain (d : Disk) (r : Retention) (now : Nat) : Disk :=
  { d with
    segs := retainSegs r now d.segs
    writers := d.writers.filter (fun w =>
      !d.segs.any (fun s => s.start = w.1) || (retainSegs r now d.segs).any (fun s => s.start = w.1)) }

/-- `persistence.rs:98-103` `struct TopicContext`; `dirty`: the topic is in `dirty_topics`. -/
structure Ctx where
  active : Nat
  highest : Nat
  size : Nat
  dirty : Bool
  deriving DecidableEq, Repr

/-- `persistence.rs:218-231`: the context of a topic that is written to for the first time. -/
def Ctx.open (d : Disk) : Ctx :=
  match d.segs.getLast? with
  | some s => { active := s.start, highest := 0, size := s.data.length, dirty := false }
  | none => { active := 1, highest := 0, size := 0, dirty := false }

/-- `persistence.rs:242-253`: does this record start a new segment? -/
def Ctx.rolls (c : Ctx) (maxSegment len : Nat) : Bool := decide (maxSegment < c.size + len) && decide (0 < c.size)

/-- `persistence.rs:199-269` `handle_append` with one message, after the context has been looked up. -/
def appendTo (crc : Bytes → Nat) (maxSegment : Nat) (d : Disk) (c : Ctx) (m : Msg) (now : Nat) : Disk × Ctx :=
  if c.rolls maxSegment (record crc m).length then
    ((((d.close c.active now).openWriter m.seq now).write m.seq (record crc m)),
      { active := m.seq, highest := m.seq, size := (record crc m).length, dirty := true })
  else
    ((d.openWriter c.active now).write c.active (record crc m),
      { active := c.active, highest := m.seq, size := c.size + (record crc m).length, dirty := true })

/-- What a restart finds: `persistence.rs:447-467` `recover_topic`. -/
structure Recovered where
  head : Nat
  msgs : List Msg
  groups : List (Str × Nat)
  deriving DecidableEq, Repr

/-- `persistence.rs:447-467` `recover_topic`. -/
def recover (crc : Bytes → Nat) (lossy : Bytes → Str) (d : Disk) : Recovered :=
  { head := d.headSeq
    msgs := match d.segs.getLast? with
      | none => []
      | some s => loadLog crc s.data
    groups := match d.groups with
      | none => []
      | some b => loadGroups crc lossy b }

end Verif.Stream
