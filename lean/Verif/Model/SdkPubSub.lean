import Verif.Model.PubSub

/-!
# Model of the client library's publish/subscribe dispatcher

`/repo/sdk/ts/src/brokers/pubsub.ts`.  Callbacks are identified with the pattern they were registered for (the
library keeps one callback per pattern).
-/

namespace Verif.PubSub.Sdk

/-- `pubsub.ts:109-111` `isWildcard`. -/
def isWildcard (topic : Str) : Bool := topic.contains 43 || topic.contains 35

/-- `pubsub.ts:113-119` `matchesParts`: the loop from index `i` on; the first argument is `pParts[i..]`. -/
def matchesFrom (tParts : List Str) : List Str → Nat → Bool
  | [], i => decide (i = tParts.length)
  | x :: rest, i =>
    if x = hashS then true
    else if decide (tParts.length ≤ i) || (decide (x ≠ plusS) && decide (some x ≠ tParts[i]?)) then false
    else matchesFrom tParts rest (i + 1)

/-- `pubsub.ts:113-119` `matchesParts`. -/
def matchesParts (pParts tParts : List Str) : Bool := matchesFrom tParts pParts 0

/-- `pubsub.ts:38-40`: the two maps (keys only). -/
structure Client where
  exact : List Str := []
  wild : List Str := []
  deriving DecidableEq, Repr

/-- `pubsub.ts:64-83` `subscribe`, when the server accepts the request. -/
def Client.subscribe (s : Client) (topic : Str) : Client :=
  if topic ∈ s.exact ∨ topic ∈ s.wild then s
  else if isWildcard topic then { s with wild := s.wild ++ [topic] }
  else { s with exact := s.exact ++ [topic] }

/-- `pubsub.ts:85-91` `unsubscribe`. -/
def Client.unsubscribe (s : Client) (topic : Str) : Client :=
  { exact := setRemove topic s.exact, wild := setRemove topic s.wild }

/-- `pubsub.ts:93-107` `dispatch`: the patterns whose callbacks are called, in order. -/
def Client.dispatch (s : Client) (topic : Str) : List Str :=
  (if topic ∈ s.exact then [topic] else []) ++ s.wild.filter (fun p => matchesParts (split p) (split topic))

/-- `pubsub.ts:93-107` for a single registered pattern: is its callback called for the topic? -/
def accepts (pattern topic : Str) : Bool :=
  if isWildcard pattern then matchesParts (split pattern) (split topic) else decide (pattern = topic)

/-- Calls made by the application. -/
inductive Call where
  | subscribe (topic : Str)
  | unsubscribe (topic : Str)
  deriving DecidableEq, Repr

def Client.step (s : Client) : Call → Client
  | .subscribe t => s.subscribe t
  | .unsubscribe t => s.unsubscribe t

def Client.run (s : Client) (l : List Call) : Client := l.foldl Client.step s

end Verif.PubSub.Sdk
