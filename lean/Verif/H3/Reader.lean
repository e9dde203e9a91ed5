import Verif.Codec.Model
import Verif.Lib.Basic

/-!
# The HTTP/3 frame reader, `neqo-http3/src/frames/reader.rs`

`FrameReader` is generic in a `FrameDecoder`, which says how frames of one
protocol (HTTP/3, WebTransport, capsules) are decoded.  A decoder is a record of
functions here.  `usize` has 64 bits, so `usize::try_from` of a varint succeeds.
-/
namespace Neqo.H3
open Neqo.Codec (Bytes IncUint IncBuffer incIgnoreConsume)

/-- The errors of `neqo-http3/src/lib.rs` that this code returns, and panics. -/
inductive Err where
  | httpFrame
  | httpFrameUnexpected
  | httpExcessiveLoad
  | httpSettings
  | httpMessage
  | httpGeneralProtocolStream
  | httpId
  | notEnoughData
  | invalidHeader
  | httpGeneralProtocol
  | panic
  deriving Repr, DecidableEq

/-- `trait FrameDecoder` (reader.rs:21-43). -/
structure FrameDecoder (T : Type) where
  isKnownType : Nat → Bool
  frameTypeAllowed : Nat → Except Err Unit
  maxFrameData : Nat → Nat
  decode : Nat → Nat → Option Bytes → Except Err (Option T)

/-- `MAX_READ_SIZE` (reader.rs:19). -/
def maxReadSize : Nat := 2048

/-- `enum FrameReaderState` (reader.rs:97-103). -/
inductive RState where
  | getType (decoder : IncUint)
  | getLength (decoder : IncUint)
  | getData (decoder : IncBuffer)
  | discharge (remaining : Nat)
  deriving Repr, DecidableEq

/-- `struct FrameReader` (reader.rs:105-111), without the scratch buffer. -/
structure Reader where
  state : RState
  frameType : Nat
  frameLen : Nat
  deriving Repr, DecidableEq

/-- `FrameReader::new` (reader.rs:130-139); `u64::MAX` stands for no type. -/
def Reader.new : Reader := ⟨.getType {}, 2 ^ 64 - 1, 0⟩

/-- `FrameReader::new_with_type` (reader.rs:142-151). -/
def Reader.newWithType (t : Nat) : Reader := ⟨.getLength {}, t, 0⟩

/-- `FrameReader::reset` (reader.rs:153-157). -/
def Reader.reset (r : Reader) : Reader := { r with state := .getType {} }

/-- `FrameReader::min_remaining` (reader.rs:159-167). -/
def Reader.minRemaining (r : Reader) : Nat :=
  match r.state with
  | .getType d | .getLength d => d.minRemaining
  | .getData d => d.remaining
  | .discharge n => n

/-- `FrameReader::decoding_in_progress` (reader.rs:169-175). -/
def Reader.inProgress (r : Reader) : Bool :=
  match r.state with
  | .getType d => d.remaining.isSome
  | _ => true

variable {T : Type} (F : FrameDecoder T)

/-- `FrameReader::frame_type_decoded` (reader.rs:265-272). -/
def Reader.typeDecoded (r : Reader) (t : Nat) : Except Err Reader := do
  F.frameTypeAllowed t
  pure { r with frameType := t, state := .getLength {} }

/-- `FrameReader::frame_length_decoded` (reader.rs:274-312).  The assertion of
`IncrementalDecoderIgnore::new` cannot fail because zero was tested before. -/
def Reader.lengthDecoded (r : Reader) (len : Nat) : Except Err (Reader × Option T) := do
  let r1 := { r with frameLen := len }
  match ← F.decode r1.frameType len (if len > 0 then none else some []) with
  | some f => pure (r1.reset, some f)
  | none =>
    if F.isKnownType r1.frameType then
      if len > F.maxFrameData r1.frameType then .error .httpExcessiveLoad
      else pure ({ r1 with state := .getData (IncBuffer.new len) }, none)
    else if len = 0 then pure (r1.reset, none)
    else pure ({ r1 with state := .discharge len }, none)

/-- `FrameReader::frame_data_decoded` (reader.rs:314-323). -/
def Reader.dataDecoded (r : Reader) (data : Bytes) : Except Err (Reader × Option T) := do
  let res ← F.decode r.frameType r.frameLen (some data)
  pure (r.reset, res)

/-- `FrameReader::consume` (reader.rs:229-264), on the bytes just read. -/
def Reader.consume (r : Reader) (input : Bytes) : Except Err (Reader × Option T) :=
  match r.state with
  | .getType d =>
    match d.consume input with
    | none => .error .panic
    | some (_, some v, _) => do
      let r' ← r.typeDecoded F v
      pure (r', none)
    | some (d', none, _) => pure ({ r with state := .getType d' }, none)
  | .getLength d =>
    match d.consume input with
    | none => .error .panic
    | some (_, some len, _) => r.lengthDecoded F len
    | some (d', none, _) => pure ({ r with state := .getLength d' }, none)
  | .getData d =>
    match d.consume input with
    | (_, some data, _) => r.dataDecoded F data
    | (d', none, _) => pure ({ r with state := .getData d' }, none)
  | .discharge n =>
    match incIgnoreConsume n input with
    | (n', done, _) =>
      if done then pure (r.reset, none) else pure ({ r with state := .discharge n' }, none)

/-- What the transport holds for the stream: the bytes received in order and not
yet read, and whether the end of the stream is known to follow them. -/
structure Src where
  avail : Bytes
  fin : Bool
  deriving Repr, DecidableEq

/-- `StreamReader::read_data` (reader.rs:52, 70-73) into a buffer of `n` bytes:
as much as fits; the end is reported with the last byte.  (What the stream itself
does, including errors after the end was reported, is modelled in `Verif.RecvS`;
the callers of the reader stop at the end.) -/
def Src.read (s : Src) (n : Nat) : Bytes × Bool × Src :=
  (s.avail.take n, s.fin && s.avail.length ≤ n, { s with avail := s.avail.drop n })

/-- `FrameReader::receive` (reader.rs:185-224).  `fuel` bounds the number of
passes through the loop; `fuel_enough` shows that the bound is never reached when
it exceeds the number of bytes available.  On an error the connection is closed,
so no state is returned. -/
def Reader.receiveLoop : Nat → Reader → Src → Except Err (Reader × Src × Option T × Bool)
  | 0, _, _ => .error .panic
  | fuel + 1, r, s =>
    let toRead := min r.minRemaining maxReadSize
    let (input, fin, s') := s.read toRead
    match (if input = [] then pure (r, none) else r.consume F input) with
    | .error e => .error e
    | .ok (r', some f) => pure (r', s', some f, fin)
    | .ok (r', none) =>
      if fin then
        if r'.inProgress then .error .httpFrame else pure (r', s', none, true)
      else if input = [] then pure (r', s', none, false)
      else Reader.receiveLoop fuel r' s'

/-- `FrameReader::receive` (reader.rs:185-224). -/
def Reader.receive (r : Reader) (s : Src) : Except Err (Reader × Src × Option T × Bool) :=
  r.receiveLoop F (s.avail.length + 1) s

/-! ## The loop around the reader

All users of the reader call `receive` until it returns nothing
(`ControlStreamRemote::receive_single`/`receive` in control_stream_remote.rs,
`RecvMessage::receive_internal` in recv_message.rs:273-353, the session
implementations in features/extended_connect).  For a `DATA` frame the payload is
not read by the reader but by `RecvMessage::read_data` (recv_message.rs:412-455),
directly from the stream; then a new reader is made. -/

/-- What is passed up: a frame, or a byte of a payload that the reader leaves on
the stream. -/
inductive Item (T : Type) where
  | frame (f : T)
  | byte (b : UInt8)
  deriving Repr, DecidableEq

/-- How it ends: waiting for more data, at the end of the stream, or an error. -/
inductive End where
  | more
  | finished
  | failed (e : Err)
  deriving Repr, DecidableEq

/-- The state between two arrivals of data: the reader, and how many payload
bytes are to be read past it. -/
structure Pump where
  reader : Reader
  left : Nat
  deriving Repr, DecidableEq

/-- One activation: everything that can be read is read.  `payload` says how many
bytes of payload a frame leaves on the stream (`len` of `DATA`, else none).
`fuel` as in `receiveLoop`. -/
def Pump.run (payload : T → Nat) : Nat → Pump → Src → List (Item T) × End × Pump
  | 0, p, _ => ([], .failed .panic, p)
  | fuel + 1, p, s =>
    if p.left > 0 then
      let (input, fin, s') := s.read p.left
      let left := p.left - input.length
      let items := input.map Item.byte
      if left > 0 then (items, if fin then .failed .httpFrame else .more, ⟨p.reader, left⟩)
      else if fin then (items, .finished, ⟨Reader.new, 0⟩)
      else
        let (is, e, p') := Pump.run payload fuel ⟨Reader.new, 0⟩ s'
        (items ++ is, e, p')
    else
      match p.reader.receive F s with
      | .error e => ([], .failed e, p)
      | .ok (r, _, none, fin) => ([], if fin then .finished else .more, ⟨r, 0⟩)
      | .ok (r, s', some f, fin) =>
        if fin && payload f = 0 then ([.frame f], .finished, ⟨r, 0⟩)
        else
          let (is, e, p') := Pump.run payload fuel ⟨r, payload f⟩ s'
          (.frame f :: is, e, p')

/-- The data of the stream arrives in pieces; `fin` says whether the last piece
carries the end of the stream (the last piece may be empty). -/
def Pump.feed (payload : T → Nat) : Pump → List Bytes → Bool → List (Item T) × End
  | _, [], _ => ([], .more)
  | p, [c], fin =>
    let (is, e, _) := p.run F payload (c.length + 1) ⟨c, fin⟩
    (is, e)
  | p, c :: cs, fin =>
    match p.run F payload (c.length + 1) ⟨c, false⟩ with
    | (is, .more, p') =>
      let (is', e) := Pump.feed payload p' cs fin
      (is ++ is', e)
    | (is, e, _) => (is, e)

end Neqo.H3
