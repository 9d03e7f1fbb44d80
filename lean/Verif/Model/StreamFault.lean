import Verif.Model.StreamTopic

/-!
# Model of a topic whose storage fails

`/repo/src/brokers/stream/domain/persistence.rs`: what the storage task does when an operation on a file fails.  Every error is
logged or ignored; the task goes on, and nobody is told.  A step of `Topic` is an operation that succeeds; a `Fault` is one that
fails.  Which bytes of a failing write reach the file is up to the fault.  Failures of `remove_file`, `metadata` and `read_dir` in
`apply_retention` are not modelled.
-/

namespace Verif.Stream

/-- What can fail. -/
inductive Fault where
  /-- `persistence.rs:209-214`: the directory of the topic cannot be made; the command is dropped. -/
  | noDir
  /-- `persistence.rs:267`: the segment file cannot be opened; the command is dropped. -/
  | noOpen (now : Nat)
  /-- `persistence.rs:257-261`: `write_all` fails; `n` bytes of what was to be written reach the file, the writer is dropped with the
  rest. -/
  | noWrite (n now : Nat)
  /-- `persistence.rs:245-247`, `274-276`: the flush of a writer that is closed fails; `n` bytes reach the file. -/
  | noClose (start n now : Nat)
  /-- `persistence.rs:285-287`: some of the flushes fail; of the writers listed only so many bytes reach the file. -/
  | noFlush (bad : List (Nat × Nat)) (now : Nat)
  /-- `persistence.rs:178-181`: `groups.log` cannot be replaced. -/
  | noSave
  /-- `persistence.rs:408-411`: these segments cannot be opened for reading. -/
  | noRead (bad : List Nat)
  deriving DecidableEq, Repr

/-- A writer is dropped after `n` of its bytes have reached the file. -/
def Disk.lose (d : Disk) (start n now : Nat) : Disk :=
  { d.leak start n now with writers := mdel (d.leak start n now).writers start }

/-- `persistence.rs:285-287` when the flushes of the writers in `bad` fail. -/
def Disk.flushSome (d : Disk) (bad : List (Nat × Nat)) (now : Nat) : Disk :=
  (mkeys d.writers).foldl (fun d s => match mget bad s with | some n => d.leak s n now | none => d.flush s now) d

/-- `persistence.rs:242-254`: the old segment is closed if the record does not fit in; nothing has been written yet. -/
def rollTo (crc : Bytes → Nat) (maxSegment : Nat) (d : Disk) (c : Ctx) (m : Msg) (now : Nat) : Disk × Ctx :=
  if c.rolls maxSegment (record crc m).length then (d.close c.active now, { c with active := m.seq, size := 0 }) else (d, c)

/-- A segment that cannot be opened is read as if it were empty. -/
def unreadable (bad : List Nat) (segs : List Seg) : List Seg :=
  segs.map (fun s => if s.start ∈ bad then { s with data := [] } else s)

namespace Topic

variable (crc : Bytes → Nat)

/-- `persistence.rs:284-300` `flush_all` when some flushes fail: the errors are ignored (`286`) and `persisted_seq` goes up all the
same. -/
def flushSome (t : Topic) (bad : List (Nat × Nat)) (now : Nat) : Topic :=
  match t.ctx with
  | none => { t with disk := t.disk.flushSome bad now }
  | some c =>
    { t with
      disk := t.disk.flushSome bad now
      persisted := if c.dirty && decide (0 < c.highest) then c.highest else t.persisted
      ctx := some (if c.dirty then { c with highest := 0, dirty := false } else c) }

/-- A failure.  It concerns the command that the storage task handles next (nothing happens if that is another command). -/
def fail (t : Topic) : Fault → Topic
  | .noDir =>
    match t.chan, t.ctx with
    | .append _ :: cs, none => if t.disk.segs = [] then { t with chan := cs } else t
    | _, _ => t
  | .noOpen now =>
    match t.chan with
    | .append m :: cs =>
      let r := rollTo crc t.cfg.maxSegment t.disk (t.ctx.getD (Ctx.open t.disk)) m now
      if mhas r.1.writers r.2.active then t else { t with chan := cs, disk := r.1, ctx := some r.2 }
    | _ => t
  | .noWrite n now =>
    match t.chan with
    | .append m :: cs =>
      let r := rollTo crc t.cfg.maxSegment t.disk (t.ctx.getD (Ctx.open t.disk)) m now
      { t with chan := cs, disk := (((r.1.openWriter r.2.active now).write r.2.active (record crc m)).lose r.2.active n now), ctx := some r.2 }
    | _ => t
  | .noClose start n now => { t with disk := t.disk.lose start n now }
  | .noFlush bad now => t.flushSome bad now
  | .noSave =>
    match t.chan with
    | .save _ :: cs => { t with chan := cs }
    | _ => t
  | .noRead bad =>
    match t.chan with
    | .cold id fromSeq limit :: cs =>
      { t with
        chan := cs
        fetches := mupd t.fetches id (fun op =>
          if op.phase = .disk then { op with phase := .answered (coldRead crc (unreadable bad t.disk.segs) fromSeq limit) } else op) }
    | .coldRead id fromSeq limit :: cs =>
      { t with chan := cs, reads := mupd t.reads id (fun _ => some (coldRead crc (unreadable bad t.disk.segs) fromSeq limit)) }
    | _ => t

/-- Steps, failures, crashes. -/
inductive FEv where
  | ev (e : Ev)
  | fault (x : Fault)
  | crash (lossy : Bytes → Str)

/-- One of them. -/
def stepF (t : Topic) : FEv → Topic × Out
  | .ev e => t.step crc e
  | .fault x => (t.fail crc x, .none)
  | .crash lossy => (t.restart crc lossy, .none)

/-- A history with failures. -/
def runF (t : Topic) : List FEv → Topic
  | [] => t
  | e :: es => runF (t.stepF crc e).1 es

end Topic
end Verif.Stream
