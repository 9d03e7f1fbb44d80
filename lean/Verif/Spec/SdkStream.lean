import Verif.Model.SdkStream

/-! # What a user of a stream subscription can observe -/

namespace Verif.Sdk.StreamLoop

/-- The messages an event brings: those of the answer the loop waits for. -/
def brings (s : Loop) (e : Ev) : List Nat := match e, s.phase with | .delivered ms, .polling _ => ms | _, _ => []

/-- The messages in the answers of the fetch requests, in order. -/
def received (concurrency : Nat) (s : Loop) : List Ev → List Nat
  | [] => []
  | e :: es => brings s e ++ received concurrency (step concurrency s e).1 es

/-- Does this concern message `m`? -/
def Out.of (m : Nat) : Out → Bool
  | .call k => k == m
  | .ack _ k => k == m
  | _ => false

/-- What was done with message `m`, in order. -/
def about (m : Nat) (os : List Out) : List Out := os.filter (Out.of m)

/-- The messages the user's callback was called with, in order. -/
def called : List Out → List Nat
  | [] => []
  | .call m :: os => m :: called os
  | _ :: os => called os

/-- The membership in the latest fetch request. -/
def lastFetch : List Out → Option Member
  | [] => none
  | o :: os => (lastFetch os).or (match o with | .fetch c => some c | _ => none)

/-- The callbacks that have been called and have not returned. -/
def inProgress (s : Loop) : List Nat :=
  match s.phase with
  | .batch _ _ running _ => running
  | _ => []

end Verif.Sdk.StreamLoop
