import Verif.Model.QueueStore

/-!
# Overlapping requests on one queue

A request changes the in-memory queue under the lock, releases the lock, and only then sends its storage
operations to the writer (`/repo/src/brokers/queue/manager.rs`: push `284-291`, pop `299-311`, ack `322-329`,
nack `340-365`, consume `381-388`, timeout task `169-204`, replay `471-486`, delete `499-506`, purge `516-523`).
Requests on different connections, and different requests on the same connection
(`/repo/src/transport/tcp/connection.rs:79-110`), run concurrently.  Each request that has changed the queue
and not yet sent everything has an outbox; `send i` sends the first operation of outbox `i`.
-/

namespace Verif.Queue

/-- A queue with its database; `log` and `arrived` are ghost fields: the storage operations in the order of
the state changes and in the order in which they reached the writer, since the last start. -/
structure Race where
  q : QInner
  db : DB
  pending : List StorageOp
  outboxes : List (List StorageOp)
  log : List StorageOp
  arrived : List StorageOp
  deriving DecidableEq, Repr

inductive RaceEvent where
  | op (o : Op)
  | send (i : Nat)
  | commit (n : Nat)
  | restart (now : Nat)
  deriving DecidableEq, Repr

/-- One atomic step. -/
def Race.step (s : Race) : RaceEvent → Race × Option Out
  | .op o =>
    let r := Queue.step s.q o
    ({ s with q := r.1, outboxes := s.outboxes ++ [r.2.2], log := s.log ++ r.2.2 }, some r.2.1)
  | .send i =>
    match s.outboxes[i]? with
    | some (x :: rest) =>
      ({ s with outboxes := s.outboxes.set i rest, pending := s.pending ++ [x], arrived := s.arrived ++ [x] }, none)
    | _ => (s, none)
  | .commit n => ({ s with db := execAll s.db (s.pending.take n), pending := s.pending.drop n }, none)
  | .restart now =>
    ({ q := recover s.q.cfg now s.db, db := s.db, pending := [], outboxes := [], log := [], arrived := [] }, none)

/-- A schedule. -/
def Race.run (s : Race) : List RaceEvent → Race × List (Option Out)
  | [] => (s, [])
  | e :: t =>
    let r := s.step e
    let r' := Race.run r.1 t
    (r'.1, r.2 :: r'.2)

def Race.new (cfg : Config) : Race :=
  { q := QInner.empty cfg, db := DB.empty, pending := [], outboxes := [], log := [], arrived := [] }

/-- The requests of a schedule, in the order of their state changes. -/
def raceOps : List RaceEvent → List Event
  | [] => []
  | .op o :: t => .op o :: raceOps t
  | _ :: t => raceOps t

end Verif.Queue
