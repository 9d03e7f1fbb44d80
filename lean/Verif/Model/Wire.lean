import Verif.Base.Basic

/-!
# Model of the wire format: frames

`/repo/src/transport/tcp/protocol/codec.rs`, `frame.rs`, and the frame level of the client library,
`/repo/sdk/ts/src/connection.ts:150-208`, `/repo/sdk/ts/src/codec.ts:62-178`.

`FrameHeader` has alignment 1 and size 10, so `bytemuck::try_from_bytes` on ten bytes never fails.  Integers are
`Nat`; `as u32` is `% 2^32`.
-/

namespace Verif.Wire

/-- `u32::to_be_bytes` of `v as u32`, `put_u32`. -/
def be32 (v : Nat) : Bytes :=
  [UInt8.ofNat (v / 2 ^ 24), UInt8.ofNat (v / 2 ^ 16), UInt8.ofNat (v / 2 ^ 8), UInt8.ofNat v]

/-- `u64::to_be_bytes` of `v as u64`, `put_u64`. -/
def be64 (v : Nat) : Bytes := be32 (v / 2 ^ 32) ++ be32 v

/-- Big-endian value of a byte string: `from_be_bytes`, `get_u32`, `get_u64`. -/
def beVal (b : Bytes) : Nat := b.foldl (fun a x => a * 256 + x.toNat) 0

/-- `frame.rs:24-41` -/
def typeRequest : UInt8 := 1
def typeResponse : UInt8 := 2
def typePush : UInt8 := 3
def statusOk : UInt8 := 0
def statusErr : UInt8 := 1
def statusNull : UInt8 := 2
def statusData : UInt8 := 3

/-- `frame.rs:72-76` `InboundFrame`, with the header's id as a number. -/
structure Frame where
  ftype : UInt8
  op : UInt8
  id : Nat
  payload : Bytes
  deriving DecidableEq, Repr

/-- `frame.rs:58` `FrameHeader::SIZE`. -/
def headerSize : Nat := 10

/-- Result of `decode`: more bytes needed (`Ok(None)`), protocol error, or one frame and the rest of the buffer. -/
inductive Decoded where
  | need
  | err
  | frame (f : Frame) (rest : Bytes)
  deriving DecidableEq, Repr

/-- `codec.rs:24-57` `NexoCodec::decode`; `max` is `server.max_payload_size`. -/
def decode (max : Nat) (src : Bytes) : Decoded :=
  if src.length < headerSize then .need
  else
    let len := beVal ((src.drop 6).take 4)
    if len > max then .err
    else if src.length < headerSize + len then .need
    else
      .frame
        { ftype := src.getD 0 0, op := src.getD 1 0, id := beVal ((src.drop 2).take 4),
          payload := (src.drop headerSize).take len }
        (src.drop (headerSize + len))

/-- `frame.rs:87-93` `Response`. -/
inductive Response where
  | ok
  | data (b : Bytes)
  | error (msg : Str)
  | null
  deriving DecidableEq, Repr

/-- `frame.rs:79-83` `OutboundFrame`. -/
inductive Outbound where
  | response (id : Nat) (r : Response)
  | push (id : Nat) (payload : Bytes)
  deriving DecidableEq, Repr

/-- `codec.rs:66-75`: status byte and payload. -/
def Response.wire : Response → UInt8 × Bytes
  | .ok => (statusOk, [])
  | .null => (statusNull, [])
  | .error msg => (statusErr, be32 msg.length ++ msg)
  | .data d => (statusData, d)

/-- `codec.rs:63-97` `NexoCodec::encode`. -/
def encode : Outbound → Bytes
  | .response id r => typeResponse :: r.wire.1 :: (be32 id ++ be32 r.wire.2.length ++ r.wire.2)
  | .push id payload => typePush :: 0 :: (be32 id ++ be32 payload.length ++ payload)

/-- Result of reading a buffer as far as possible. -/
structure Drained where
  frames : List Frame
  rest : Bytes
  err : Bool
  deriving DecidableEq, Repr

/-- `FramedRead` (tokio-util): calls `decode` until it asks for more bytes or fails.  The first argument bounds the
number of calls (every frame takes at least ten bytes, see `drain`). -/
def drainN (max : Nat) : Nat → Bytes → Drained
  | 0, b => ⟨[], b, false⟩
  | n + 1, b =>
    match decode max b with
    | .need => ⟨[], b, false⟩
    | .err => ⟨[], b, true⟩
    | .frame f rest =>
      let r := drainN max n rest
      { r with frames := f :: r.frames }

def drain (max : Nat) (b : Bytes) : Drained := drainN max (b.length + 1) b

/-- The reading half of a connection (`connection.rs:113-140` `run_socket`): what has been handed on, the buffer, and
whether a protocol error has ended it (after which nothing more is read). -/
structure Reader where
  frames : List Frame := []
  buf : Bytes := []
  err : Bool := false
  deriving DecidableEq, Repr

/-- One read from the socket returns `chunk`. -/
def Reader.feed (max : Nat) (s : Reader) (chunk : Bytes) : Reader :=
  if s.err then s
  else
    let r := drain max (s.buf ++ chunk)
    { frames := s.frames ++ r.frames, buf := r.rest, err := r.err }

def Reader.run (max : Nat) (s : Reader) (chunks : List Bytes) : Reader := chunks.foldl (Reader.feed max) s

/-- How reading ends when the peer closes: `FramedRead` reports an error if bytes are left over
(`Decoder::decode_eof`'s default), otherwise a clean end. -/
def Reader.cleanEof (s : Reader) : Bool := !s.err && s.buf.isEmpty

/-! ### The client library -/

/-- `codec.ts:168-177` `finish`, with `body` the bytes written after `begin` (`buf[10..offset]`). -/
def tsFinish (id : Nat) (opcode : UInt8) (body : Bytes) : Bytes :=
  typeRequest :: opcode :: (be32 id ++ be32 body.length ++ body)

/-- `connection.ts:160-174`: one iteration of the loop of `processBuffer` with the header parsing of
`connection.ts:177-184`; `none`: wait for more bytes. -/
def tsDecode (buf : Bytes) : Option (Frame × Bytes) :=
  if buf.length < 10 then none
  else
    let len := beVal ((buf.drop 6).take 4)
    if buf.length < 10 + len then none
    else
      some ({ ftype := buf.getD 0 0, op := buf.getD 1 0, id := beVal ((buf.drop 2).take 4),
              payload := (buf.drop 10).take len },
            buf.drop (10 + len))

/-- `connection.ts:160-174`: the loop. -/
def tsDrainN : Nat → Bytes → List Frame × Bytes
  | 0, b => ([], b)
  | n + 1, b =>
    match tsDecode b with
    | none => ([], b)
    | some (f, rest) =>
      let r := tsDrainN n rest
      (f :: r.1, r.2)

def tsDrain (b : Bytes) : List Frame × Bytes := tsDrainN (b.length + 1) b

/-- `connection.ts:101-104`, `150-175` `processBuffer`: a chunk arrives. -/
def tsFeed (s : List Frame × Bytes) (chunk : Bytes) : List Frame × Bytes :=
  let r := tsDrain (s.2 ++ chunk)
  (s.1 ++ r.1, r.2)

def tsRun (chunks : List Bytes) : List Frame × Bytes := chunks.foldl tsFeed ([], [])

end Verif.Wire
