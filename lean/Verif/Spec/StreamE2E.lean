import Verif.Model.StreamE2E
import Verif.Spec.SdkStream
import Verif.Spec.StreamGroup

/-! # What the users of a topic and of its consumers can observe -/

namespace Verif.StreamE2E

open Verif.Stream (Msg Topic)
open Verif.Sdk.StreamLoop (Loop Ev Member inProgress)

variable (crc : Bytes → Nat) (o : Options)

/-- The messages the callback of client `k` is called with in a step. -/
def callsBy (s : Net) (k : Nat) : Event → List Msg
  | .client j e =>
    if j = k then
      (Sdk.StreamLoop.called (Sdk.StreamLoop.step (o.concurrency k) (s.clients k).loop e).2).filterMap (fun m => s.deliveries[m]?)
    else []
  | _ => []

/-- The messages the callback of client `k` was called with, in order. -/
def callsOf (k : Nat) (s : Net) : List Event → List Msg
  | [] => []
  | e :: es => callsBy o s k e ++ callsOf k (s.step crc o e) es

/-- The messages the callbacks of all clients were called with in a step. -/
def calledBy (s : Net) : Event → List Msg
  | .client k e => callsBy o s k (.client k e)
  | _ => []

/-- The messages the callbacks of the clients were called with, in order. -/
def calls (s : Net) : List Event → List Msg
  | [] => []
  | e :: es => calledBy o s e ++ calls (s.step crc o e) es

/-- The message whose callback returns without an error in a step. -/
def doneBy (s : Net) : Event → List Nat
  | .client k (.returned m true _) =>
    if m ∈ inProgress (s.clients k).loop then (s.deliveries[m]?).toList.map (·.seq) else []
  | _ => []

/-- The messages for which the callback of some client returned without an error. -/
def processed (s : Net) : List Event → List Nat
  | [] => []
  | e :: es => doneBy s e ++ processed (s.step crc o e) es

/-- The steps of the topic in a step. -/
def serverEvent (s : Net) : Event → List Stream.Ev
  | .exec i conn consumer order => match s.requests[i]? with | some q => [q.ev o conn consumer order] | none => []
  | .server e => [e]
  | _ => []

/-- The steps of the topic in a history. -/
def serverEvents (s : Net) : List Event → List Stream.Ev
  | [] => []
  | e :: es => serverEvent o s e ++ serverEvents (s.step crc o e) es

/-- The consumer ids given out in a history. -/
def newIds : List Event → List Str
  | [] => []
  | .exec _ _ c _ :: es => c :: newIds es
  | .server (.join _ _ c) :: es => c :: newIds es
  | _ :: es => newIds es

/-- Somebody other than the clients acknowledges message `s` for the group. -/
def AckedByOther (es : List Event) (s : Nat) : Prop := ∃ c gen, .server (.ack o.group c gen s) ∈ es

/-- The group is not sought. -/
def NoSeek (es : List Event) : Prop := ∀ b, .server (.seek o.group b) ∉ es

/-- How often message `s` was delivered to the group since the last seek. -/
def delivered (t : Topic) (es : List Event) (s : Nat) : Nat :=
  Stream.sinceSeek o.group s (t.trace crc (serverEvents crc o (Net.new t) es))

/-- The messages published in a history, if the next number is `first`. -/
def published (first : Nat) : List Event → List Msg
  | [] => []
  | .server (.publish ts p) :: es => { seq := first, timestamp := ts, payload := p } :: published (first + 1) es
  | _ :: es => published first es

end Verif.StreamE2E
