import Verif.Model.StreamRpc
import Verif.Spec.QueueRpc

/-!
# The streams behind the network: vocabulary
-/

namespace Verif.Rpc

open Verif Verif.Wire Verif.Sdk

variable {E I : Type}

def isStream : Cmd → Bool
  | .sCreate .. | .sPub .. | .sFetch .. | .sJoin .. | .sAck .. | .sSeek .. | .sExists _ | .sDelete _ | .sLeave .. => true
  | _ => false

/-- The server has streams (`part`) that only the stream commands and background steps (`bg`: of which topic, and which one) touch;
whatever else is in the engine is left open. -/
structure StreamPart (srv : Server E I) (env : Env) (part : E → Streams) (bg : I → Option (Str × Stream.Ev)) : Prop where
  exec : ∀ l now cmd e, isStream cmd = true →
    (part (srv.exec l now cmd e).1, (srv.exec l now cmd e).2) = streamExec env l now cmd (part e)
  other : ∀ l now cmd e, isStream cmd = false → part (srv.exec l now cmd e).1 = part e
  tick : ∀ x e, part (srv.tick x e) = match bg x with | some (n, ev) => (part e).background env.crc n ev | none => part e
  tasks : ∀ x n ev, bg x = some (n, ev) → inBackground ev = true

/-- The act is a stream command. -/
def isStreamAct : Act I → Bool
  | .did _ cmd _ _ => isStream cmd
  | .ticked _ => false

/-- The consumer ids made in a run are different, and a message may be delivered at least once. -/
structure Env.Ok (env : Env) (A : List (Act I)) : Prop where
  ids : ∀ i j, i < A.countP isStreamAct → j < A.countP isStreamAct → env.consumer i = env.consumer j → i = j
  deliveries : 1 ≤ env.sys.maxDeliveries

/-- Everything published fits the records of the files, and the clock fits 64 bits. -/
structure Small (A : List (Act I)) : Prop where
  payloads : ∀ l n pl now r, Act.did l (.sPub n pl) now r ∈ A → 16 + pl.length < 2 ^ 32 ∧ now < 2 ^ 64
  length : A.length < 2 ^ 63

/-- Messages on the wire: number, timestamp, length of the payload, payload. -/
def readStream : Nat → Bytes → List (Nat × Nat × Bytes)
  | 0, _ => []
  | n + 1, b =>
    let k := beVal ((b.drop 16).take 4)
    (beVal (b.take 8), beVal ((b.drop 8).take 8), (b.drop 20).take k) :: readStream n (b.drop (20 + k))

/-- The messages (number, timestamp, payload) that an answer to a fetch hands out. -/
def fetchedMsgs : Option Response → List (Nat × Nat × Bytes)
  | some (.data d) => readStream (beVal (d.take 4)) (d.drop 4)
  | _ => []

/-- Their numbers. -/
def fetchedSeqs (r : Option Response) : List Nat := (fetchedMsgs r).map (·.1)

/-- The act deletes topic `n`. -/
def dropsTopic (n : Str) (a : Act I) : Prop := ∃ l now r, a = .did l (.sDelete n) now r

/-- The act publishes on topic `n` and is answered with a number. -/
def publishes (n : Str) : Act I → Bool
  | .did _ (.sPub m _) _ (some (.data _)) => decide (m = n)
  | _ => false

/-- After the acts `x` there is no topic `n`: nothing happened yet, or it has just been deleted. -/
def Anew (n : Str) (x : List (Act I)) : Prop := x = [] ∨ ∃ y a, x = y ++ [a] ∧ dropsTopic n a

/-- The act seeks group `g` of topic `n`. -/
def seeks (n g : Str) (a : Act I) : Prop := ∃ l toEnd now r, a = .did l (.sSeek n g toEnd) now r

/-- The act is a fetch for group `g` of topic `n` that hands out message `s`. -/
def givesOut (n g : Str) (s : Nat) (a : Act I) : Prop :=
  ∃ l c gen limit w now r, a = .did l (.sFetch n g c gen limit w) now r ∧ s ∈ fetchedSeqs r

/-- How often the act hands out message `s` to group `g` of topic `n`. -/
def timesIn (n g : Str) (s : Nat) : Act I → Nat
  | .did _ (.sFetch m g' _ _ _ _) _ r => if m = n ∧ g' = g then (fetchedSeqs r).count s else 0
  | _ => 0

/-- How often these acts do. -/
def timesGiven (n g : Str) (s : Nat) (v : List (Act I)) : Nat := (v.map (timesIn n g s)).sum

/-- The act tells topic `n` which messages retention has removed. -/
def removes (bg : I → Option (Str × Stream.Ev)) (n : Str) (a : Act I) : Prop := ∃ x, a = .ticked x ∧ bg x = some (n, .retainDone)

/-- Among the acts `A`, consumer `c` joined group `g` of topic `n` over connection `l`. -/
def joinedOver (A : List (Act I)) (n g c : Str) (l : Nat) : Prop :=
  ∃ now floor gen, Act.did l (.sJoin g n) now (some (.data (wireJoin floor gen c))) ∈ A

/-- The act takes back what consumer `c` of group `g` was handed at `now`: the consumer leaves, the connection over which it had joined
closes, or the time for acknowledging is over. -/
def takesBack (env : Env) (bg : I → Option (Str × Stream.Ev)) (A : List (Act I)) (n g c : Str) (now : Nat) (a : Act I) : Prop :=
  (∃ l gen t, a = .did l (.sLeave n g c gen) t (some .ok)) ∨
  (∃ x l order, a = .ticked x ∧ bg x = some (n, .disconnect (env.conn l) order) ∧ joinedOver A n g c l) ∨
  ∃ x t order, a = .ticked x ∧ bg x = some (n, .tick t order) ∧ env.sys.ackWait < t - now

end Verif.Rpc
