import Verif.Model.PubSub
import Verif.Model.StreamTopic
import Verif.Model.Wire

/-!
# Model of the end of a connection

`/repo/src/transport/tcp/connection.rs:17-105` `handle_connection`: registration with the pub-sub broker, the tasks of
the requests, the end of the socket task, and the cleanup after it.

The brokers are those of `Model/PubSub.lean` and `Model/StreamTopic.lean`.  A request task is a list of sections, each
of which is one atomic step of a broker (the code between two `await`s may run several of them in one poll).  Between
polls a task is parked; `abort_all` drops a parked task at once, and a task that is being polled by another worker thread
when its poll ends (tokio checks the cancellation flag only between polls).  Simplifications: the topics of the stream
broker are given (none is created or deleted while the model runs), the queue and store brokers keep nothing per
connection and are left out, and the drop of a fetch that waits for the storage task (`Ev.abort`) counts as an event of
its own.
-/

namespace Verif.Session

open Verif

/-- One atomic step of a broker. -/
inductive Req where
  | ps (op : PubSub.Op)
  | st (topic : Str) (e : Stream.Ev)

/-- The brokers that keep something per connection (`lib.rs`, `NexoEngine`). -/
structure World where
  pubsub : PubSub.State
  topics : List (Str × Stream.Topic)

def World.exec (dflt : Nat) (crc : Bytes → Nat) (w : World) : Req → World
  | .ps op => { w with pubsub := (PubSub.step dflt w.pubsub op).1 }
  | .st n e => { w with topics := mupd w.topics n (fun t => (t.step crc e).1) }

def World.run (dflt : Nat) (crc : Bytes → Nat) (w : World) (rs : List Req) : World := rs.foldl (World.exec dflt crc) w

/-- Where `handle_connection` is. -/
inductive Status where
  /-- not accepted yet -/
  | fresh
  /-- `connection.rs:59-92`: in the main loop -/
  | serving
  /-- `connection.rs:83`: out of the loop, before `abort_all` -/
  | ended
  /-- `connection.rs:100`: before `pubsub.disconnect` -/
  | aborted
  /-- `manager.rs:368`: in the loop of `stream.disconnect`; the topics still to visit -/
  | leaving (todo : List Str)
  /-- `connection.rs:104`: returned `Ok` -/
  | closed
  /-- `connection.rs:84-85`: returned `Err` -/
  | failed
  deriving DecidableEq, Repr

structure Task where
  /-- being polled by a worker thread -/
  polled : Bool
  /-- the sections still to run -/
  todo : List Req

/-- One connection: pub-sub knows it as `cid`, the stream broker as `conn` (the same UUID in `connection.rs:24`). -/
structure Conn where
  cid : PubSub.Cid
  conn : Str
  /-- the topics of the stream broker -/
  topics : List Str
  status : Status := .fresh
  tasks : List Task := []

inductive SEv where
  /-- `connection.rs:24-39`: the connection is accepted -/
  | accept
  /-- `connection.rs:62-78`: a request arrives and its task is spawned -/
  | spawn (todo : List Req)
  /-- a worker thread begins to poll the `i`-th task -/
  | poll (i : Nat)
  /-- the `i`-th task runs its next section -/
  | work (i : Nat)
  /-- the poll of the `i`-th task ends -/
  | park (i : Nat)
  /-- `connection.rs:81-87`: the main loop sees that the socket task has ended; `ok`: with `Ok(())` -/
  | socket (ok : Bool)
  /-- `connection.rs:99-102`: one step of the cleanup; `order` as in `Stream.Ev.disconnect` -/
  | cleanup (order : Str → List Nat)
  /-- anything that other connections and the background tasks do -/
  | other (r : Req)

/-- The main loop is over: cancelled tasks do not survive the end of a poll. -/
def Status.over : Status → Bool
  | .fresh | .serving | .ended => false
  | _ => true

/-- `connection.rs:99`, and the drop of `request_set` at 84-85. -/
def Conn.abortAll (c : Conn) : Conn := { c with tasks := c.tasks.filter (·.polled) }

/-- One step: the new state, and the steps of the brokers that it makes. -/
def Conn.step (c : Conn) : SEv → Conn × List Req
  | .accept =>
    match c.status with
    | .fresh => ({ c with status := .serving }, [.ps (.connect c.cid)])
    | _ => (c, [])
  | .spawn todo =>
    match c.status with
    | .serving => ({ c with tasks := c.tasks ++ [{ polled := false, todo }] }, [])
    | _ => (c, [])
  | .poll i => ({ c with tasks := c.tasks.modify i (fun t => { t with polled := true }) }, [])
  | .work i =>
    match c.tasks[i]? with
    | some ⟨true, r :: rest⟩ => ({ c with tasks := c.tasks.set i { polled := true, todo := rest } }, [r])
    | _ => (c, [])
  | .park i =>
    if c.status.over then ({ c with tasks := c.tasks.eraseIdx i }, [])
    else ({ c with tasks := c.tasks.modify i (fun t => { t with polled := false }) }, [])
  | .socket ok =>
    match c.status with
    | .serving => if ok then ({ c with status := .ended }, []) else ({ c.abortAll with status := .failed }, [])
    | _ => (c, [])
  | .cleanup order =>
    match c.status with
    | .ended => ({ c.abortAll with status := .aborted }, [])
    | .aborted => ({ c with status := .leaving c.topics }, [.ps (.disconnect c.cid)])
    | .leaving (n :: rest) => ({ c with status := .leaving rest }, [.st n (.disconnect c.conn order)])
    | .leaving [] => ({ c with status := .closed }, [])
    | _ => (c, [])
  | .other r => (c, [r])

/-- A run: the final state, and what the brokers have done. -/
def Conn.run (c : Conn) : List SEv → Conn × List Req
  | [] => (c, [])
  | e :: es =>
    let x := c.step e
    let y := Conn.run x.1 es
    (y.1, x.2 ++ y.2)

/-- `connection.rs:108-145` `run_socket`, as far as reading goes: the socket task ends with `Ok(())` when the peer has
closed the connection after the bytes `chunks` exactly if they are complete acceptable frames (`framed_reader.next()`
gives `None`); bytes of an unfinished frame make the decoder fail at the end of the stream. -/
def socketOk (max : Nat) (chunks : List Bytes) : Bool := (Wire.Reader.run max {} chunks).cleanEof

end Verif.Session
