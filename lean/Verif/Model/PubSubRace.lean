import Verif.Model.PubSub

/-!
# Model of overlapping publish/subscribe requests

`/repo/src/brokers/pub-sub/manager.rs:105-197`.  The manager has no lock of its own: `clients` is a `DashMap` and `tree` is
under a `RwLock`, and most requests use first the one and then the other.  Here every use of one of them is a step, and the
steps of different requests interleave in any way.  A request in progress is known by a number.

Simplifications: retained values are as in `Model/PubSub.lean` (their expiry, flush and cleanup concern the tree alone and are
left out here, except that a new subscriber gets those that have not expired); `dirty` and the database are left out.
-/

namespace Verif.PubSub.Race

open Verif.PubSub

/-- A request in progress: what it has still to do. -/
inductive Task where
  /-- `subscribe`: enter the tree and send the retained values (`manager.rs:130-141`) -/
  | subscribe (c : Cid) (pattern : Str)
  /-- `unsubscribe`: leave the tree (`148-150`) -/
  | unsubscribe (c : Cid) (pattern : Str)
  /-- `publish`: find the subscribers (`168-175`) -/
  | route (topic : Str) (data : Bytes)
  /-- `publish`: send to these clients (`181-191`); those that could not be reached -/
  | send (msg : Msg) (todo zombies : List Cid)
  /-- `disconnect` of the first has left `clients` and must leave the tree (`114-118`); the other clients follow (`193-195`) -/
  | forget (c : Cid) (patterns : List Str) (rest : List Cid)
  /-- these clients are to be disconnected (`193-195`) -/
  | disconnect (cs : List Cid)
  deriving DecidableEq, Repr

/-- A message that was put into the channel of a client, by which request. -/
structure Sent where
  by_ : Nat
  to : Cid
  msg : Msg
  deriving DecidableEq, Repr

/-- `manager.rs:17-22`; `clients` with the subscriptions of each; `gone`: clients whose receiver has ended. -/
structure State where
  tree : Node := .empty
  clients : List (Cid × List Str) := []
  gone : List Cid := []
  tasks : List (Nat × Task) := []

/-- The requests that clients and connections make. -/
inductive Req where
  | subscribe (c : Cid) (pattern : Str)
  | unsubscribe (c : Cid) (pattern : Str)
  /-- `keep`: whether the value is retained, and what is stored (nothing if the payload is empty, `manager.rs:159-160`) -/
  | publish (topic : Str) (data : Bytes) (keep : Option (Option Retained))
  | disconnect (c : Cid)
  deriving DecidableEq, Repr

inductive Ev where
  /-- `connect` (`manager.rs:105-110`) -/
  | connect (c : Cid)
  /-- the receiving end of the channel of a client ends -/
  | gone (c : Cid)
  /-- a request begins, up to and including its first use of `clients` or `tree` -/
  | start (id : Nat) (r : Req)
  /-- a request goes on: the next use of `clients` or `tree` -/
  | next (id : Nat) (now : Nat)
  deriving DecidableEq, Repr

/-- The first section of `disconnect` for the first of some clients (`manager.rs:113`). -/
def beginDrop (s : State) (id : Nat) : List Cid → State
  | [] => { s with tasks := mdel s.tasks id }
  | c :: rest =>
    match mget s.clients c with
    | some subs => { s with clients := mdel s.clients c, tasks := mset s.tasks id (.forget c subs rest) }
    | none => { s with tasks := if rest = [] then mdel s.tasks id else mset s.tasks id (.disconnect rest) }

/-- One section of a request in progress. -/
def advance (s : State) (id now : Nat) : Task → State × List Sent
  | .subscribe c pattern =>
    let t := insertSub c (split pattern) s.tree
    let msgs := (collectPattern now (split pattern) [] t).map (fun e => Msg.mk (stripLabel e.1) e.2.data)
    ({ s with tree := t, tasks := mdel s.tasks id }, if c ∈ s.gone then [] else msgs.map (fun m => ⟨id, c, m⟩))
  | .unsubscribe c pattern => ({ s with tree := (removeSub c (split pattern) s.tree).1, tasks := mdel s.tasks id }, [])
  | .route topic data =>
    ({ s with tasks := mset s.tasks id (.send ⟨topic, data⟩ (dedup [] (matchSubs (split topic) s.tree)) []) }, [])
  | .send msg [] zombies => (beginDrop s id zombies, [])
  | .send msg (c :: todo) zombies =>
    if (mget s.clients c).isSome ∧ c ∉ s.gone then ({ s with tasks := mset s.tasks id (.send msg todo zombies) }, [⟨id, c, msg⟩])
    else ({ s with tasks := mset s.tasks id (.send msg todo (zombies ++ [c])) }, [])
  | .forget c patterns rest =>
    ({ s with tree := patterns.foldl (fun t p => (removeSub c (split p) t).1) s.tree
              tasks := if rest = [] then mdel s.tasks id else mset s.tasks id (.disconnect rest) }, [])
  | .disconnect cs => (beginDrop s id cs, [])

/-- The first section of a request. -/
def begin_ (s : State) (id : Nat) : Req → State
  | .subscribe c pattern =>
    -- `manager.rs:123-128`
    match mget s.clients c with
    | some subs => { s with clients := mset s.clients c (setInsert pattern subs), tasks := mset s.tasks id (.subscribe c pattern) }
    | none => s
  | .unsubscribe c pattern =>
    -- `manager.rs:145-147`
    { s with clients := mupd s.clients c (setRemove pattern), tasks := mset s.tasks id (.unsubscribe c pattern) }
  | .publish topic data keep =>
    -- `manager.rs:157-165`
    { s with tree := match keep with | some r => setRetained r (split topic) s.tree | none => s.tree
             tasks := mset s.tasks id (.route topic data) }
  | .disconnect c => beginDrop s id [c]

def step (s : State) : Ev → State × List Sent
  | .connect c => ({ s with clients := mset s.clients c [] }, [])
  | .gone c => ({ s with gone := c :: s.gone }, [])
  | .start id r => (begin_ s id r, [])
  | .next id now =>
    match mget s.tasks id with
    | some t => advance s id now t
    | none => (s, [])

def run (s : State) : List Ev → State
  | [] => s
  | e :: es => run (step s e).1 es

def outs (s : State) : List Ev → List Sent
  | [] => []
  | e :: es => (step s e).2 ++ outs (step s e).1 es

end Verif.PubSub.Race
