import Verif.Model.Engine
import Verif.Spec.StoreRpc
import Verif.Spec.StreamRpc
import Verif.Spec.PubSubRpc

/-!
# The whole engine: vocabulary
-/

namespace Verif.Rpc

open Verif Verif.Wire Verif.Sdk

variable {E I : Type}

inductive Broker where
  | store
  | queue
  | stream
  | pubsub
  deriving DecidableEq

/-- The broker of a command, by the protocol's opcode table: 0x02-0x0F the store, 0x10-0x1F queues, 0x21-0x2F publish/subscribe, 0x30-0x3F
streams. -/
def Cmd.broker (cmd : Cmd) : Broker :=
  if cmd.opcode < 0x10 then .store else if cmd.opcode < 0x20 then .queue else if cmd.opcode < 0x30 then .pubsub else .stream

/-- The broker of a background task. -/
def Task.broker : Task → Broker
  | .sweep .. => .store
  | .commit .. | .timeouts .. => .queue
  | .stream .. => .stream
  | .hub _ => .pubsub

/-- The act concerns broker `b`. -/
def Act.on (b : Broker) : Act Task → Bool
  | .did _ cmd _ _ => decide (Cmd.broker cmd = b)
  | .ticked x => decide (x.broker = b)

/-- The acts, with these answers, are what something with these commands and tasks does from `e` on. -/
def History (exec : Nat → Nat → Cmd → E → E × Option Response) (tick : I → E → E) : E → List (Act I) → Prop
  | _, [] => True
  | e, .did l cmd now r :: A => (exec l now cmd e).2 = r ∧ History exec tick (exec l now cmd e).1 A
  | e, .ticked x :: A => History exec tick (tick x e) A

/-- The same acts: only the answers may differ. -/
def Act.ask : Act I → Act I
  | .did l cmd now _ => .did l cmd now none
  | .ticked x => .ticked x

/-! ### Each broker on its own -/

def storeAlone (c : Conf) : Nat → Nat → Cmd → Store.Map → Store.Map × Option Response := fun _ now cmd m => storeExec c.storeTtl now cmd m

def storeTask : Task → Store.Map → Store.Map
  | .sweep k now, m => Store.sweep m k now
  | _, m => m

def queueAlone (c : Conf) : Nat → Nat → Cmd → Queues → Queues × Option Response := fun _ now cmd q => queueExec c.queue c.batch c.supply now cmd q

def queueTask (c : Conf) : Task → Queues → Queues
  | .commit q k, s => { s with mgr := (s.mgr.step c.queue (.commit q k)).1 }
  | .timeouts q t t', s => { s with mgr := (s.mgr.step c.queue (.op q (.tick t t'))).1 }
  | _, s => s

def streamAlone (c : Conf) : Nat → Nat → Cmd → Streams → Streams × Option Response := fun l now cmd s => streamExec c.stream l now cmd s

def streamTask (c : Conf) : Task → Streams → Streams
  | .stream n ev, s => if inBackground ev then s.background c.stream.crc n ev else s
  | _, s => s

def hubAlone (c : Conf) : Nat → Nat → Cmd → Hub → Hub × Option Response := fun l now cmd h => hubExec c.hub l now cmd h

def hubTask (c : Conf) : Task → Hub → Hub
  | .hub op, h => if ofHub op then h.step c.hub op else h
  | _, h => h

end Verif.Rpc
