import Verif.Model.Command

/-!
# Which commands and answers fit the wire format
-/

namespace Verif.Wire

/-- A string that can travel: its UTF-8 form is well formed and its length fits 32 bits. -/
def StrOk (s : Str) : Prop := s.length < 2 ^ 32 ∧ validUtf8 s = true

instance (s : Str) : Decidable (StrOk s) := inferInstanceAs (Decidable (_ ∧ _))

/-- All arguments of the command are within the limits of the wire format: strings `StrOk`, message ids 16 bytes,
integers within 32 or 64 bits. -/
def Cmd.Fits : Cmd → Prop
  | .mapSet key _ _ => StrOk key
  | .mapGet key | .mapDel key => StrOk key
  | .qCreate q _ => StrOk q
  | .qPush q _ _ => StrOk q
  | .qConsume q _ => StrOk q
  | .qAck id q => id.length = 16 ∧ StrOk q
  | .qNack id q reason => id.length = 16 ∧ StrOk q ∧ StrOk reason
  | .qExists q | .qDelete q | .qPurge q => StrOk q
  | .qPeek q limit offset => StrOk q ∧ limit < 2 ^ 32 ∧ offset < 2 ^ 32
  | .qMove q id | .qDelDlq q id => id.length = 16 ∧ StrOk q
  | .publish topic _ _ => StrOk topic
  | .subscribe topic | .unsubscribe topic => StrOk topic
  | .sCreate topic _ => StrOk topic
  | .sPub topic _ => StrOk topic
  | .sFetch topic group consumer generation limit waitMs =>
    StrOk topic ∧ StrOk group ∧ StrOk consumer ∧ generation < 2 ^ 64 ∧ limit < 2 ^ 32 ∧ waitMs < 2 ^ 32
  | .sJoin group topic => StrOk group ∧ StrOk topic
  | .sAck topic group consumer generation seq =>
    StrOk topic ∧ StrOk group ∧ StrOk consumer ∧ generation < 2 ^ 64 ∧ seq < 2 ^ 64
  | .sSeek topic group _ => StrOk topic ∧ StrOk group
  | .sExists topic | .sDelete topic => StrOk topic
  | .sLeave topic group consumer generation => StrOk topic ∧ StrOk group ∧ StrOk consumer ∧ generation < 2 ^ 64

/-- serde reads the JSON text the client wrote for the options of this command as the same options. -/
def Cmd.Json (sd : Serde) (pr : Printer) : Cmd → Prop
  | .mapSet _ o _ => StrOk (pr.set o) ∧ sd.set (pr.set o) = some o
  | .qCreate _ o => StrOk (pr.queue o) ∧ sd.queue (pr.queue o) = some o
  | .qPush _ o _ => StrOk (pr.push o) ∧ sd.push (pr.push o) = some o
  | .qConsume _ o => StrOk (pr.consume o) ∧ sd.consume (pr.consume o) = some o
  | .publish _ o _ => StrOk (pr.pub o) ∧ sd.pub (pr.pub o) = some o
  | .sCreate _ o => StrOk (pr.stream o) ∧ sd.stream (pr.stream o) = some o
  | _ => True

/-- A payload the client library can write: anything `JSON.stringify` produces is non-empty text. -/
def Val.Writable (v : Val) : Prop := v ≠ .json []

instance (v : Val) : Decidable v.Writable := inferInstanceAs (Decidable (¬ _))

/-- The protocol's opcode table. -/
def Cmd.opcode : Cmd → Nat
  | .mapSet .. => 0x02
  | .mapGet .. => 0x03
  | .mapDel .. => 0x04
  | .qCreate .. => 0x10
  | .qPush .. => 0x11
  | .qConsume .. => 0x12
  | .qAck .. => 0x13
  | .qExists .. => 0x14
  | .qDelete .. => 0x15
  | .qPeek .. => 0x16
  | .qMove .. => 0x17
  | .qDelDlq .. => 0x18
  | .qPurge .. => 0x19
  | .qNack .. => 0x1A
  | .publish .. => 0x21
  | .subscribe .. => 0x22
  | .unsubscribe .. => 0x23
  | .sCreate .. => 0x30
  | .sPub .. => 0x31
  | .sFetch .. => 0x32
  | .sJoin .. => 0x33
  | .sAck .. => 0x34
  | .sExists .. => 0x35
  | .sDelete .. => 0x36
  | .sSeek .. => 0x38
  | .sLeave .. => 0x39

end Verif.Wire
