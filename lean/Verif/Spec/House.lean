import Verif.Spec.Engine
import Verif.Spec.QueueShop
import Verif.Spec.StreamDesk

/-!
# The whole server as one sequential object: specification

The store is a partial function from keys to values with the moment until which they live; the queues are those of `Spec/QueueShop.lean`,
the streams those of `Spec/StreamDesk.lean`.  Publish/subscribe has no state that its answers depend on.  `HStep` says which answer a command
gets, and what the commands and the background tasks do to the three of them.
-/

namespace Verif.Rpc

open Verif Verif.Wire Verif.Sdk

variable {E I : Type}

/-! ### The store -/

/-- The values and the moments until which they live. -/
abbrev Shelf := Str → Option (Bytes × Nat)

def Shelf.put (S : Shelf) (k : Str) (x : Option (Bytes × Nat)) : Shelf := fun k' => if k' = k then x else S k'

/-- One command on the store.  A time to live that is left out or zero stands for the default; if the moment cannot be represented, the
server fails, and there is no answer. -/
def Shelf.serve (dflt now : Nat) (S : Shelf) : Cmd → Shelf × Option Response
  | .mapSet k opts v =>
    let till := Store.expiry dflt opts.ttl now
    if Store.representable till then (S.put k (some (v, till)), some .ok) else (S, none)
  | .mapGet k =>
    (S, some (match S k with
      | some (v, till) => if till < now then .null else .data v
      | none => .null))
  | .mapDel k => (S.put k none, some .ok)
  | _ => (S, none)

/-- The cleanup reaches key `k`, with the clock at `now`. -/
def Shelf.clean (S : Shelf) (k : Str) (now : Nat) : Shelf :=
  match S k with
  | some (_, till) => if till ≤ now then S.put k none else S
  | none => S

/-- The store after one more act of a server whose cleanup is `sw`. -/
def shelfStep (dflt : Nat) (sw : I → Option (Str × Nat)) (S : Shelf) : Act I → Shelf
  | .did _ cmd now _ => (S.serve dflt now cmd).1
  | .ticked x => match sw x with | some k => S.clean k.1 k.2 | none => S

/-- The store after the acts `u`, from an empty store. -/
def shelfAfter (dflt : Nat) (sw : I → Option (Str × Nat)) (u : List (Act I)) : Shelf := u.foldl (shelfStep dflt sw) (fun _ => none)

/-! ### Publish/subscribe -/

/-- The answer to a publish/subscribe command: always ok, unless a value is to be kept until a moment that cannot be represented (the
server fails, and there is no answer). -/
def hubAnswer (dflt now : Nat) : Cmd → Option Response
  | .publish _ opts payload =>
    if opts.retain = some true ∧ payload ≠ [] ∧ PubSub.representable now (opts.ttl.getD dflt) = false then none else some .ok
  | _ => some .ok

/-! ### All of it -/

structure House where
  shelf : Shelf
  shop : Shop
  /-- how many messages have been pushed to queues (ids) -/
  pushes : Nat
  library : Library

def House.empty : House := ⟨fun _ => none, fun _ => none, 0, fun _ => none⟩

/-- The background steps of the streams (`LStep`): what the tasks of a topic do, commands excepted. -/
def topicTask : Task → Option (Str × Stream.Ev)
  | .stream n ev => if inBackground ev then some (n, ev) else none
  | _ => none

/-- What an act of the server may be, and what it does. -/
inductive HStep (c : Conf) (h : House) : Act Task → House → Prop
  | store (l now cmd r) (hc : Cmd.broker cmd = .store) (hr : (h.shelf.serve c.storeTtl now cmd).2 = r) :
      HStep c h (.did l cmd now r) { h with shelf := (h.shelf.serve c.storeTtl now cmd).1 }
  | queue (l now cmd r) (hc : Cmd.broker cmd = .queue)
      (hr : tells cmd (h.shop.serve c.queue.visibilityTimeout c.queue.maxRetries c.batch (c.supply h.pushes) now cmd).2 r) :
      HStep c h (.did l cmd now r)
        { h with shop := (h.shop.serve c.queue.visibilityTimeout c.queue.maxRetries c.batch (c.supply h.pushes) now cmd).1
                 pushes := h.pushes + if isPush (.did l cmd now r : Act Task) then 1 else 0 }
  | stream (l now cmd r D) (hc : Cmd.broker cmd = .stream) (hr : LStep c.stream topicTask h.library (.did l cmd now r) D) :
      HStep c h (.did l cmd now r) { h with library := D }
  | pubsub (l now cmd r) (hc : Cmd.broker cmd = .pubsub) (hr : hubAnswer c.hub.dflt now cmd = r) : HStep c h (.did l cmd now r) h
  | clean (k now) : HStep c h (.ticked (.sweep k now)) { h with shelf := h.shelf.clean k now }
  | commit (q k) : HStep c h (.ticked (.commit q k)) h
  | timeouts (q t t') : HStep c h (.ticked (.timeouts q t t')) { h with shop := (h.shop.ask q (.tick t t')).1 }
  | topic (n ev D) (hr : LStep c.stream topicTask h.library (.ticked (.stream n ev)) D) : HStep c h (.ticked (.stream n ev)) { h with library := D }
  | hub (op) : HStep c h (.ticked (.hub op)) h

/-- The acts can be carried out one after the other, each with its answer, from an empty server. -/
inductive HRun (c : Conf) : List (Act Task) → House → Prop
  | start : HRun c [] .empty
  | step {A a h h'} (hA : HRun c A h) (ha : HStep c h a h') : HRun c (A ++ [a]) h'

end Verif.Rpc
