import Verif.Base.AMap

/-!
# Model of overlapping requests that create, delete and use one stream topic

`/repo/src/brokers/stream/manager.rs`: `create_topic` `95-136`, `delete_topic` `138-151`, `publish` `153-174`, `exists` `414-421`,
`load_topic_config` `435-442`, `bootstrap_from_disk` `444-482`, `build_topic_shared` `484-514`, the task that saves the groups
`539-570`; `domain/persistence.rs`: `handle_command` `166-197`, `handle_append` `199-269`, `recover_topic` `447-468`,
`save_groups_file` `491-506`; `domain/topic.rs`: `from_options` `28-59`.

One topic name.  A request is cut at its `await`s and at the points where it leaves a lock or sends to the storage task.  Simplifications.
The directory of the topic is its configuration file, the records of its segment files in order, and the group file; segments,
eviction, retention and torn writes are in `Verif.Model.StreamDisk` and `Verif.Model.StreamTopic`, and here everything the storage task
has written is on disk.  What a topic object can be asked for (from memory or disk) is `msgs`.  The progress of the groups is the list of
all that was acknowledged, newest first.  `exists` is one step.  Files are read and written in one step and without errors, but a file in
a directory that is not there cannot be written.
-/

namespace Verif.StreamLife

/-- `options.rs:8-17`: the retention part of the options of a create request. -/
structure Opts where
  maxAge : Option Nat
  maxBytes : Option Nat
  deriving DecidableEq, Repr

/-- The part of `TopicConfig` that a create request can set; `none` is "no limit". -/
structure Cfg where
  maxAge : Option Nat
  maxBytes : Option Nat
  deriving DecidableEq, Repr

/-- The server's defaults (`default_retention_age_ms`, `default_retention_bytes`). -/
structure Defaults where
  age : Nat
  bytes : Nat
  deriving DecidableEq, Repr

/-- One option (`topic.rs:31-38`): left out means the default, zero means no limit. -/
def limit (o : Option Nat) (dflt : Nat) : Option Nat :=
  match o with
  | none => some dflt
  | some v => if v = 0 then none else some v

/-- `topic.rs:28-59` `from_options`; no `retention` object is the same as one with both fields left out. -/
def Cfg.fromOptions (o : Opts) (sys : Defaults) : Cfg := { maxAge := limit o.maxAge sys.age, maxBytes := limit o.maxBytes sys.bytes }

/-- `StreamCreateOptions::default()` (`manager.rs:467`). -/
def Opts.default : Opts := { maxAge := none, maxBytes := none }

/-- A message: number and payload. -/
structure Rec where
  seq : Nat
  payload : List UInt8
  deriving DecidableEq, Repr

/-- Progress of groups: group name and number. -/
abbrev Floors := List (Nat × Nat)

/-- A topic object (`manager.rs:22-46` `TopicShared`, `TopicInner`). -/
structure Obj where
  cfg : Cfg
  msgs : List Rec
  next : Nat
  floors : Floors
  deriving DecidableEq, Repr

/-- The topic's directory. -/
structure Dir where
  cfg : Option Cfg
  recs : List Rec
  floors : Floors
  deriving DecidableEq, Repr

def Dir.empty : Dir := { cfg := none, recs := [], floors := [] }

/-- Commands to the storage task (`persistence.rs:64-98`). -/
inductive Cmd where
  | append (r : Rec)
  | drop (r : Nat)
  | save (f : Floors)
  deriving DecidableEq, Repr

/-- Where a request stands.  Create: not in the map (`98`); existence of the directory known (`103`); configuration loaded (`104`);
directory made, configuration to be written (`113`, `120`); to be built (`125`); to be recovered (`490`); to be inserted (`127`).  Delete:
not in the map, directory to be looked for (`142`); `DropTopic` sent (`148`).  Publish: topic found (`154`); number assigned (`157`). -/
inductive Task where
  | looked (o : Opts)
  | known (o : Opts) (existed : Bool)
  | loaded (c : Cfg) (existed : Bool)
  | write (c : Cfg)
  | build (c : Cfg)
  | recover (c : Cfg)
  | insert (x : Obj)
  | look
  | drop
  | found (k : Nat) (payload : List UInt8)
  | appended (r : Rec)
  deriving DecidableEq, Repr

/-- Everything there is about one topic name: the object in the map, all objects of this process, the storage task's channel, the
directory, the unanswered requests by number, and the groups' progress that the saving task has taken and not yet sent. -/
structure Life where
  live : Option Nat
  objs : List (Nat × Obj)
  nextObj : Nat
  chan : List Cmd
  dir : Option Dir
  tasks : List (Nat × Task)
  saving : Option Floors
  deriving DecidableEq, Repr

/-- Answers. -/
inductive Ans where
  | ok
  | notFound
  | bool (b : Bool)
  | seq (n : Nat)
  deriving DecidableEq, Repr

/-- What can happen: requests (with their number) begin, go on to their next stage; a group's progress changes; the groups are
taken and sent to be saved; the storage task handles its next command; the process ends and starts again. -/
inductive Ev where
  | create (r : Nat) (o : Opts)
  | createOn (r : Nat)
  | delete (r : Nat)
  | deleteOn (r : Nat)
  | publish (r : Nat) (payload : List UInt8)
  | publishOn (r : Nat)
  | ack (g n : Nat)
  | saveTake
  | saveSend
  | store
  | exist
  | restart
  deriving DecidableEq, Repr

/-- The configuration file if there is one, else what the options say (`manager.rs:435-442`). -/
def loadCfg (d : Option Dir) (o : Opts) (sys : Defaults) : Cfg := ((d.bind Dir.cfg)).getD (Cfg.fromOptions o sys)

/-- `manager.rs:490-493`, `persistence.rs:447-468`, `topic.rs:85-97`: the object from the files; the next number is one more than that of
the last record. -/
def recoverObj (c : Cfg) (d : Option Dir) : Obj :=
  match d with
  | none => { cfg := c, msgs := [], next := 1, floors := [] }
  | some d => { cfg := c, msgs := d.recs, next := (d.recs.getLast?.map (fun r => r.seq + 1)).getD 1, floors := d.floors }

/-- Puts an object into the map, if there is none (`manager.rs:127-134`, `473-479`). -/
def Life.put (s : Life) (x : Obj) : Life :=
  match s.live with
  | some _ => s
  | none => { s with objs := mset s.objs s.nextObj x, nextObj := s.nextObj + 1, live := some s.nextObj }

/-- The next stage of a create request (`manager.rs:102-135`, `484-491`). -/
def Life.createOn (sys : Defaults) (s : Life) (r : Nat) : Life × Option Ans :=
  match mget s.tasks r with
  | some (.looked o) => ({ s with tasks := mset s.tasks r (.known o s.dir.isSome) }, none)
  | some (.known o ex) => ({ s with tasks := mset s.tasks r (.loaded (loadCfg s.dir o sys) ex) }, none)
  | some (.loaded c false) => ({ s with dir := some (s.dir.getD Dir.empty), tasks := mset s.tasks r (.write c) }, none)
  | some (.loaded c true) => ({ s with tasks := mset s.tasks r (if (s.dir.bind Dir.cfg).isSome then .build c else .write c) }, none)
  | some (.write c) => ({ s with dir := s.dir.map (fun d => { d with cfg := some c }), tasks := mset s.tasks r (.build c) }, none)
  | some (.build c) => ({ s with dir := some (s.dir.getD Dir.empty), tasks := mset s.tasks r (.recover c) }, none)
  | some (.recover c) => ({ s with tasks := mset s.tasks r (.insert (recoverObj c s.dir)) }, none)
  | some (.insert x) => (({ s with tasks := mdel s.tasks r } : Life).put x, some .ok)
  | _ => (s, none)

/-- A publish request goes on: the message gets its number (`topic.rs:99-118`); it is sent to the storage task and the request is
answered (`manager.rs:162-173`). -/
def Life.publishOn (s : Life) (r : Nat) : Life × Option Ans :=
  match mget s.tasks r with
  | some (.found k p) =>
    match mget s.objs k with
    | none => (s, none)
    | some x =>
      ({ s with
          objs := mset s.objs k { x with msgs := x.msgs ++ [⟨x.next, p⟩], next := x.next + 1 }
          tasks := mset s.tasks r (.appended ⟨x.next, p⟩) }, none)
  | some (.appended m) => ({ s with chan := s.chan ++ [.append m], tasks := mdel s.tasks r }, some (.seq m.seq))
  | _ => (s, none)

/-- The storage task handles one command (`persistence.rs:166-197`): an append makes the directory if it is not there (`209-214`). -/
def Cmd.apply (d : Option Dir) : Cmd → Option Dir
  | .append r => some { d.getD Dir.empty with recs := (d.getD Dir.empty).recs ++ [r] }
  | .drop _ => none
  | .save f => d.map (fun d => { d with floors := f })

/-- One event. -/
def Life.step (sys : Defaults) (s : Life) : Ev → Life × Option Ans
  | .create r o =>
    if mhas s.tasks r then (s, none) else
      match s.live with
      | some _ => (s, some .ok)
      | none => ({ s with tasks := mset s.tasks r (.looked o) }, none)
  | .createOn r => s.createOn sys r
  | .delete r =>
    if mhas s.tasks r then (s, none) else
      match s.live with
      | some _ => ({ s with live := none, chan := s.chan ++ [.drop r], tasks := mset s.tasks r .drop }, none)
      | none => ({ s with tasks := mset s.tasks r .look }, none)
  | .deleteOn r =>
    match mget s.tasks r with
    | some .look =>
      if s.dir.isSome then ({ s with chan := s.chan ++ [.drop r], tasks := mset s.tasks r .drop }, none)
      else ({ s with tasks := mdel s.tasks r }, some .ok)
    | _ => (s, none)
  | .publish r p =>
    if mhas s.tasks r then (s, none) else
      match s.live with
      | none => (s, some .notFound)
      | some k => ({ s with tasks := mset s.tasks r (.found k p) }, none)
  | .publishOn r => s.publishOn r
  | .ack g n =>
    match s.live with
    | none => (s, some .notFound)
    | some k => ({ s with objs := mupd s.objs k (fun x => { x with floors := (g, n) :: x.floors }) }, some .ok)
  | .saveTake =>
    match s.live with
    | none => (s, none)
    | some k => if s.saving.isSome then (s, none) else ({ s with saving := (mget s.objs k).map Obj.floors }, none)
  | .saveSend =>
    match s.saving with
    | none => (s, none)
    | some f => ({ s with chan := s.chan ++ [.save f], saving := none }, none)
  | .store =>
    match s.chan with
    | [] => (s, none)
    | .drop r :: t => ({ s with chan := t, dir := none, tasks := mdel s.tasks r }, some .ok)
    | c :: t => ({ s with chan := t, dir := c.apply s.dir }, none)
  | .exist => (s, some (.bool (s.live.isSome || s.dir.isSome)))
  | .restart =>
    let s' : Life := { s with live := none, objs := [], chan := [], tasks := [], saving := none }
    match s.dir with
    | none => (s', none)
    | some _ => (s'.put (recoverObj (loadCfg s.dir Opts.default sys) s.dir), none)

def Life.run (sys : Defaults) (s : Life) : List Ev → Life × List (Option Ans)
  | [] => (s, [])
  | e :: t =>
    let r := s.step sys e
    let r' := Life.run sys r.1 t
    (r'.1, r.2 :: r'.2)

/-- No such topic. -/
def Life.new : Life := { live := none, objs := [], nextObj := 0, chan := [], dir := none, tasks := [], saving := none }

end Verif.StreamLife
