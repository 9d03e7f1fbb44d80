import Verif.Model.StreamCrash
import Verif.Spec.StreamRpc
import Verif.Spec.StreamDisk
import Verif.Spec.Paths

/-!
# The streams behind the network across crashes: vocabulary
-/

namespace Verif.Rpc

open Verif Verif.Wire Verif.Sdk
open Verif.Stream (Topic)

variable {E I : Type}

/-- What the background of a server does to its streams: a step on one topic, or the server crashes and starts again. -/
inductive Job
  | on (n : Str) (e : Stream.Ev)
  | crash

/-- The steps on topics. -/
def stepOf (bg : I → Option Job) (x : I) : Option (Str × Stream.Ev) :=
  match bg x with
  | some (.on n e) => some (n, e)
  | _ => none

/-- The server has streams (`part`) that only the stream commands, background steps and crashes touch; whatever else is in the engine is
left open. -/
structure StreamHost (srv : Server E I) (env : Env) (lossy : Bytes → Str) (part : E → Streams) (bg : I → Option Job) : Prop where
  exec : ∀ l now cmd e, isStream cmd = true →
    (part (srv.exec l now cmd e).1, (srv.exec l now cmd e).2) = streamExec env l now cmd (part e)
  other : ∀ l now cmd e, isStream cmd = false → part (srv.exec l now cmd e).1 = part e
  tick : ∀ x e, part (srv.tick x e) =
    match bg x with
    | some (.on n ev) => (part e).background env.crc n ev
    | some .crash => (part e).crash env.crc lossy
    | none => part e
  tasks : ∀ x n ev, bg x = some (.on n ev) → inBackground ev = true

/-- The streams after one more act. -/
def Streams.live (env : Env) (lossy : Bytes → Str) (bg : I → Option Job) (s : Streams) : Act I → Streams
  | .did l cmd now _ => if isStream cmd then (streamExec env l now cmd s).1 else s
  | .ticked x =>
    match bg x with
    | some (.on n ev) => s.background env.crc n ev
    | some .crash => s.crash env.crc lossy
    | none => s

/-- The streams after the acts of a run. -/
def Streams.lived (env : Env) (lossy : Bytes → Str) (bg : I → Option Job) (A : List (Act I)) : Streams :=
  A.foldl (Streams.live env lossy bg) {}

/-- The act is a crash. -/
def breaks (bg : I → Option Job) (a : Act I) : Prop := ∃ x, a = .ticked x ∧ bg x = some .crash

/-- The clock as the act reads it. -/
def actTime (bg : I → Option Job) : Act I → Option Nat
  | .did _ _ now _ => some now
  | .ticked x => (stepOf bg x).bind (fun y => y.2.time)

/-- The clock after these acts. -/
def clockOf (bg : I → Option Job) (A : List (Act I)) : Nat := A.foldl (fun c a => (actTime bg a).getD c) 0

/-- What is asked of a run with crashes: publishers hand their messages to the storage task in the order of the numbers, the clock does not
go backwards, the names of topics are file names, the names of groups are valid text that fits its length field, and no crash finds the newest file of a topic empty or
with half a record at its end. -/
structure Calm (env : Env) (lossy : Bytes → Str) (bg : I → Option Job) (A : List (Act I)) : Prop where
  inOrder : ∀ x n i, Act.ticked x ∈ A → bg x = some (.on n (.send i)) → i = 0
  clock : ∀ u a w, A = u ++ a :: w → clockOf bg u ≤ (actTime bg a).getD (clockOf bg u)
  names : ∀ l n o now r, Act.did l (.sCreate n o) now r ∈ A → Paths.Simple n
  joins : ∀ l g n now r, Act.did l (.sJoin g n) now r ∈ A → Stream.NameOk lossy g
  sought : ∀ l n g b now r, Act.did l (.sSeek n g b) now r ∈ A → Stream.NameOk lossy g
  clean : ∀ u a w, A = u ++ a :: w → breaks bg a → ∀ n t, mget (Streams.lived env lossy bg u).topics n = some t → Stream.CleanStop env.crc t.disk

/-- Under names that are file names there are no directories but those of topics (`C129_tidy_partial` says when this is so). -/
def Env.Tidy (env : Env) : Prop := ∀ k n, Paths.Simple n → env.found k n = false

/-- Topic `n` was created, and not deleted since. -/
def Made (n : Str) (A : List (Act I)) : Prop := ∃ u l o now r v, A = u ++ .did l (.sCreate n o) now r :: v ∧ ∀ a ∈ v, ¬ dropsTopic n a

/-- The act publishes on topic `n` and is answered with the number `s`. -/
def numbered (n : Str) (s : Nat) (a : Act I) : Prop := ∃ l pl ts, a = .did l (.sPub n pl) ts (some (.data (wireSeq s)))

/-- The number of the oldest message of topic `n` that retention has left. -/
def oldest (s : Streams) (n : Str) : Nat := ((mget s.topics n).map (fun t => t.log.head)).getD 0

/-- In a progress file with these contents, everything up to message `seq` counts as done for group `g`. -/
def covered (crc : Bytes → Nat) (lossy : Bytes → Str) (g : Str) (seq : Nat) (b : Bytes) : Prop :=
  ∃ f, mget (Stream.loadGroups crc lossy b) g = some f ∧ seq ≤ f

/-- So it does in the progress file of topic `n`, and in every version of it that is still to be written. -/
def Preserved (crc : Bytes → Nat) (lossy : Bytes → Str) (s : Streams) (n g : Str) (seq : Nat) : Prop :=
  ∃ t, mget s.topics n = some t ∧ (∃ b, t.disk.groups = some b ∧ covered crc lossy g seq b) ∧
    ∀ d, Stream.SCmd.save d ∈ t.chan → covered crc lossy g seq (Stream.groupsFile crc d)

/-- Message `seq` of topic `n` is in the files. -/
def Flushed (s : Streams) (n : Str) (seq : Nat) : Prop := ∃ t, mget s.topics n = some t ∧ seq ≤ t.persisted

end Verif.Rpc
