import Verif.Spec.Rpc
import Verif.Spec.Store

/-!
# The store behind the network: vocabulary
-/

namespace Verif.Rpc

open Verif Verif.Wire Verif.Sdk

variable {E I : Type}

def isStore : Cmd → Bool
  | .mapSet .. | .mapGet _ | .mapDel _ => true
  | _ => false

/-- The server has a store (`st`) that only the store's commands and the cleanup (`sw`: the key reached and the clock reading)
touch; whatever else is in the engine is left open. -/
structure StorePart (srv : Server E I) (dflt : Nat) (st : E → Store.Map) (sw : I → Option (Str × Nat)) : Prop where
  exec : ∀ l now cmd e, isStore cmd = true →
    (st (srv.exec l now cmd e).1, (srv.exec l now cmd e).2) = storeExec dflt now cmd (st e)
  other : ∀ l now cmd e, isStore cmd = false → st (srv.exec l now cmd e).1 = st e
  tick : ∀ x e, st (srv.tick x e) = match sw x with | some k => Store.sweep (st e) k.1 k.2 | none => st e

/-- What an observation does to the store. -/
def storeOp (sw : I → Option (Str × Nat)) (past : List (Obs I)) : Obs I → Option Store.Op
  | .executed l f now _ =>
    match cmdAt l f.id past with
    | some (.mapSet key opts value) => some (.set key value opts.ttl now)
    | some (.mapGet key) => some (.get key now)
    | some (.mapDel key) => some (.del key)
    | _ => none
  | .ticked x => (sw x).map (fun k => .sweep k.1 k.2)
  | _ => none

def storeOps (sw : I → Option (Str × Nat)) (past : List (Obs I)) : List (Obs I) → List Store.Op
  | [] => []
  | o :: tr => (storeOp sw past o).toList ++ storeOps sw (past ++ [o]) tr

/-- What happened to the store, in the order of the trace. -/
def storeHistory (sw : I → Option (Str × Nat)) (tr : List (Obs I)) : List Store.Op := storeOps sw [] tr

/-- `store.ts:18-22` `get`: what the promise becomes for an answer with this status and data (`none`: it is rejected). -/
def getResult (st : UInt8) (d : Bytes) : Option (Option Val) :=
  if st = 1 then none
  else if st = 2 then some none
  else (tsDecodeAny d).map some

/-- The command sets or deletes `key`. -/
def writesKey (key : Str) : Cmd → Bool
  | .mapSet k _ _ => decide (k = key)
  | .mapDel k => decide (k = key)
  | _ => false

end Verif.Rpc
