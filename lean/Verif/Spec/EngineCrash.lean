import Verif.Model.EngineCrash
import Verif.Spec.Engine
import Verif.Spec.StreamCrash

/-!
# The whole engine across crashes: vocabulary
-/

namespace Verif.Rpc

open Verif Verif.Wire Verif.Sdk

variable {E I : Type}

/-- The server has a store (`st`) that only the store's commands, the cleanup (`sw`) and crashes (`down`) touch; after a crash it is empty. -/
structure StoreHost (srv : Server E I) (dflt : Nat) (st : E → Store.Map) (sw : I → Option (Str × Nat)) (down : I → Bool) : Prop where
  exec : ∀ l now cmd e, isStore cmd = true →
    (st (srv.exec l now cmd e).1, (srv.exec l now cmd e).2) = storeExec dflt now cmd (st e)
  other : ∀ l now cmd e, isStore cmd = false → st (srv.exec l now cmd e).1 = st e
  tick : ∀ x e, down x = false → st (srv.tick x e) = match sw x with | some k => Store.sweep (st e) k.1 k.2 | none => st e
  crash : ∀ x e, down x = true → st (srv.tick x e) = []

/-- In the trace `x ++ y` the part `y` is what came since the last crash. -/
structure SinceCrash (down : I → Bool) (x y : List (Obs I)) : Prop where
  last : x = [] ∨ ∃ x' i, x = x' ++ [.ticked i] ∧ down i = true
  none : ∀ i, Obs.ticked i ∈ y → down i = false

/-- The act concerns broker `b`: a crash concerns each of them. -/
def Act.hits (b : Broker) : Act Fate → Bool
  | .did _ cmd _ _ => decide (Cmd.broker cmd = b)
  | .ticked (.task x) => decide (x.broker = b)
  | .ticked (.crash ..) => true

/-! ### Each broker on its own, with crashes -/

def storeFate : Fate → Store.Map → Store.Map
  | .task x, m => storeTask x m
  | .crash .., _ => []

def queueFate (c : Conf) : Fate → Queues → Queues
  | .task x, s => queueTask c x s
  | .crash now _ _, s => { s with mgr := (s.mgr.step c.queue (.restart now)).1 }

def streamFate (c : Conf) (lossy : Bytes → Str) : Fate → Streams → Streams
  | .task x, s => streamTask c x s
  | .crash .., s => s.crash c.stream.crc lossy

def hubFate (c : Conf) : Fate → Hub → Hub
  | .task x, h => hubTask c x h
  | .crash _ t u, h => { h with st := PubSub.boot h.st.db t u }

end Verif.Rpc
