import Verif.Model.SdkQueue
import Verif.Base.Basic

/-!
# Model of the queues of a client: who may consume

`/repo/sdk/ts/src/client.ts:52-60` `queue` and the beginning and the end of `/repo/sdk/ts/src/brokers/queue.ts:231-308` `subscribe`, which
`Model/SdkQueue.lean` leaves out.  JavaScript runs one callback at a time; an event below is what runs between two waits.  A call of `subscribe`
is known by a number.
-/

namespace Verif.Sdk.Handles

open Verif
open Verif.Sdk.QueueLoop (Loop Out)

/-- A call of `subscribe`. -/
inductive Call where
  /-- it waits for `exists` (`queue.ts:235`) -/
  | asking
  /-- its loop was started (`queue.ts:247`) -/
  | looping (l : Loop)
  /-- it has thrown (`queue.ts:232`, `236`) -/
  | rejected
  deriving DecidableEq, Repr

/-- `NexoQueue`: `isSubscribed`, and the calls of `subscribe`. -/
structure Handle where
  subscribed : Bool := false
  calls : List (Nat × Call) := []
  deriving DecidableEq, Repr

/-- `client.ts:19`: `this.queues`. -/
abbrev Client := List (Str × Handle)

inductive Ev where
  /-- `client.queue(n).subscribe(...)` -/
  | subscribe (n : Str) (i : Nat)
  /-- the `exists` of call `i` resolves -/
  | answered (n : Str) (i : Nat) (b : Bool)
  /-- something happens to the loop of call `i` -/
  | loop (n : Str) (i : Nat) (e : QueueLoop.Ev)
  deriving DecidableEq, Repr

/-- What can be seen from outside. -/
inductive Seen where
  /-- "already subscribed" -/
  | refused (n : Str) (i : Nat)
  /-- the call goes on and waits for `exists` -/
  | asked (n : Str) (i : Nat)
  /-- "not found" -/
  | absent (n : Str) (i : Nat)
  /-- the loop begins, the promise of `subscribe` is resolved -/
  | began (n : Str) (i : Nat)
  /-- the loop does something; `.finished`: it has ended -/
  | did (n : Str) (i : Nat) (o : Out)
  deriving DecidableEq, Repr

/-- `k i` is the concurrency asked for by call `i`. -/
def step (k : Nat → Nat) (c : Client) : Ev → Client × List Seen
  | .subscribe n i =>
    -- `client.ts:52-59`, `queue.ts:232-235`
    let h := (mget c n).getD {}
    if mhas h.calls i then (c, [])
    else if h.subscribed then (mset c n { h with calls := mset h.calls i .rejected }, [.refused n i])
    else (mset c n { h with calls := mset h.calls i .asking }, [.asked n i])
  | .answered n i b =>
    -- `queue.ts:235-247`
    match mget c n with
    | none => (c, [])
    | some h =>
      match mget h.calls i with
      | some .asking =>
        if b then (mset c n { subscribed := true, calls := mset h.calls i (.looping {}) }, [.began n i])
        else (mset c n { h with calls := mset h.calls i .rejected }, [.absent n i])
      | _ => (c, [])
  | .loop n i e =>
    -- `queue.ts:248-291`: the loop sets `isSubscribed` to false when it ends
    match mget c n with
    | none => (c, [])
    | some h =>
      match mget h.calls i with
      | some (.looping l) =>
        let r := QueueLoop.step (k i) l e
        (mset c n { subscribed := h.subscribed && !r.2.contains .finished, calls := mset h.calls i (.looping r.1) }, r.2.map (.did n i))
      | _ => (c, [])

/-- The client after these events, and what was seen. -/
def run (k : Nat → Nat) (c : Client) : List Ev → Client × List Seen
  | [] => (c, [])
  | e :: es => ((run k (step k c e).1 es).1, (step k c e).2 ++ (run k (step k c e).1 es).2)

end Verif.Sdk.Handles
