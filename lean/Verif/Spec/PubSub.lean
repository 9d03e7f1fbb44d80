import Verif.Model.PubSub

/-!
# Specification of publish/subscribe

Read only: operations and their inputs (`Op`), what they send (`Out`), and the level-wise reading of patterns.
Nothing here mentions the tree.
-/

namespace Verif.PubSub

/-- Does a topic, given by its levels, match a pattern, given by its levels?  `+` stands for exactly one level,
a final `#` for any number of remaining levels, including none; every other level stands for itself. -/
inductive Matches : List Str → List Str → Prop
  | done : Matches [] []
  | level {s p t} : s ≠ plusS → s ≠ hashS → Matches p t → Matches (s :: p) (s :: t)
  | plus {x p t} : Matches p t → Matches (plusS :: p) (x :: t)
  | hash {t} : Matches [hashS] t

/-- The pattern contains `#`, if at all, only as its last level. -/
def hashLast : List Str → Bool
  | [] => true
  | [_] => true
  | s :: t => decide (s ≠ hashS) && hashLast t

/-- The patterns named in an operation are proper patterns. -/
def Op.proper : Op → Bool
  | .subscribe _ p _ _ => hashLast (split p)
  | .unsubscribe _ p => hashLast (split p)
  | _ => true

/-- Is the client connected after the history (newest operation first)? -/
def connectedRev (c : Cid) : List Op → Bool
  | [] => false
  | .connect c' :: h => decide (c' = c) || connectedRev c h
  | .drop c' :: h => decide (c' ≠ c) && connectedRev c h
  | .disconnect c' :: h => decide (c' ≠ c) && connectedRev c h
  | _ :: h => connectedRev c h

/-- Has the client subscribed to this very pattern, while connected, and not unsubscribed since (newest
operation first)? -/
def subscribedRev (c : Cid) (p : Str) : List Op → Bool
  | [] => false
  | .subscribe c' p' _ _ :: h =>
    (decide (c' = c) && decide (p' = p) && connectedRev c h) || subscribedRev c p h
  | .unsubscribe c' p' :: h => !(decide (c' = c) && decide (p' = p)) && subscribedRev c p h
  | .drop c' :: h => decide (c' ≠ c) && subscribedRev c p h
  | .disconnect c' :: h => decide (c' ≠ c) && subscribedRev c p h
  | _ :: h => subscribedRev c p h

def connected (c : Cid) (h : List Op) : Bool := connectedRev c h.reverse
def subscribed (c : Cid) (p : Str) (h : List Op) : Bool := subscribedRev c p h.reverse

/-- The identifiers of all connections ever made. -/
def connects : List Op → List Cid
  | [] => []
  | .connect c :: h => c :: connects h
  | _ :: h => connects h

/-- The clock readings, in order. -/
def times : List Op → List Nat
  | [] => []
  | .subscribe _ _ _ now :: h => now :: times h
  | .publish _ _ _ _ now _ :: h => now :: times h
  | .cleanup now :: h => now :: times h
  | .flush now _ :: h => now :: times h
  | _ :: h => times h

/-- Histories as the server sees them: connection identifiers are never reused (they are fresh UUIDs,
`connection.rs`) and the monotonic clock does not go back. -/
structure Valid (start : Nat) (h : List Op) : Prop where
  fresh : (connects h).Nodup
  clock : (start :: times h).Pairwise (· ≤ ·)

/-- A retained value: payload, when it stops being served (`none`: never), and the wall clock second at which it
stops being served. -/
structure Kept where
  data : Bytes
  until_ : Option Nat
  untilUnix : Option Nat
  deriving DecidableEq, Repr

def second : Nat := 1000000000

/-- The time-to-live asked for can be represented (otherwise the request dies without effect and without
answer). -/
def representable (now secs : Nat) : Bool := decide (now + secs * second < 2 ^ 63 * second)

/-- The value retained for a topic after a history (newest operation first), given what was retained at the start:
the latest retained publish counts, an empty one clears. -/
def keptRev (dflt : Nat) (base : Str → Option Kept) (topic : Str) : List Op → Option Kept
  | [] => base topic
  | .publish topic' data true ttl now unixNow :: h =>
    if topic' = topic then
      if data = [] then none
      else if representable now (ttl.getD dflt) then
        some ⟨data, some (now + ttl.getD dflt * second), some (unixNow + ttl.getD dflt)⟩
      else keptRev dflt base topic h
    else keptRev dflt base topic h
  | _ :: h => keptRev dflt base topic h

def kept (dflt : Nat) (base : Str → Option Kept) (topic : Str) (h : List Op) : Option Kept :=
  keptRev dflt base topic h.reverse

/-- Is the value still to be served at a time? -/
def Kept.live (k : Kept) (now : Nat) : Bool :=
  match k.until_ with
  | some e => decide (now < e)
  | none => true

/-- What the rows of the database mean when the server starts on them: topic by topic, the value with the
remaining whole seconds of life (and, as the code has it, with unlimited life if none is left). -/
def baseOf (rows : List Row) (now unixNow : Nat) (topic : Str) : Option Kept :=
  match mget rows topic with
  | some (data, some u) => some ⟨data, if unixNow < u then some (now + (u - unixNow) * second) else none, some u⟩
  | some (data, none) => some ⟨data, none, none⟩
  | none => none

/-- The answer to one more operation after a history. -/
def answer (dflt : Nat) (s0 : State) (h : List Op) (op : Op) : Out :=
  (step dflt (run dflt s0 h).1 op).2

/-- The client receives the message in answer to the operation. -/
def Out.reached (o : Out) (c : Cid) (m : Msg) : Prop := (c, m) ∈ o.sent

end Verif.PubSub
