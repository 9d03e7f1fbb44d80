import Verif.Model.SdkConnection

/-! # What a user of the client library can observe of requests -/

namespace Verif.Sdk

/-- The requests made in a history, in order. -/
def requests : List CEv → List Nat
  | [] => []
  | .send tag _ _ :: es => tag :: requests es
  | _ :: es => requests es

/-- How often the promise of a request has been settled. -/
def settledTimes (tag : Nat) (outs : List (Nat × Outcome)) : Nat := (outs.map (·.1)).count tag

/-- How many frames were asked for: the number of request ids a history can use. -/
def frames : List CEv → Nat
  | [] => 0
  | .send _ _ _ :: es => frames es + 1
  | .fire :: es => frames es + 1
  | _ :: es => frames es

end Verif.Sdk
