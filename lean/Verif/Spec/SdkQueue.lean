import Verif.Model.SdkQueue

/-! # What a user of a queue subscription can observe -/

namespace Verif.Sdk.QueueLoop

/-- The messages an event brings: those of the answer the loop waits for. -/
def brings (s : Loop) (e : Ev) : List Nat := match e, s.phase with | .delivered ms, .polling => ms | _, _ => []

/-- The messages in the answers of the consume requests, in order. -/
def received (concurrency : Nat) (s : Loop) : List Ev → List Nat
  | [] => []
  | e :: es => brings s e ++ received concurrency (step concurrency s e).1 es

/-- Does this concern message `m`? -/
def Out.of (m : Nat) : Out → Bool
  | .call k => k == m
  | .ack k => k == m
  | .nack k => k == m
  | _ => false

/-- What was done with message `m`, in order. -/
def about (m : Nat) (os : List Out) : List Out := os.filter (Out.of m)

/-- The messages the user's callback was called with, in order. -/
def called : List Out → List Nat
  | [] => []
  | .call m :: os => m :: called os
  | _ :: os => called os

/-- The callbacks that have been called and have not returned. -/
def inProgress (s : Loop) : List Nat :=
  match s.phase with
  | .batch _ running _ => running
  | _ => []

/-- The connection was up whenever an event looked at it. -/
def Ev.up : Ev → Bool
  | .poll u => u
  | .take u => u
  | .returned _ _ u => u
  | _ => true

end Verif.Sdk.QueueLoop
