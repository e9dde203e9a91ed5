import Verif.Codec.Model

/-!
# Model of `neqo-transport/src/frame.rs` and of the code that writes frames

A decoder is the bytes that remain (`Verif.Codec.Model`).  Integers read from a frame are below `2^62`,
so that the additions below do not overflow a `u64`, and `usize` has 64 bits.  The text of
CONNECTION_CLOSE is kept as bytes: its conversion to a string (frame.rs:687) is left out.  A writer is
given the space left in the packet and returns the bytes that it adds.
-/
namespace Neqo.Frm
open Neqo.Codec

/-- The errors of `Frame::decode`, with the panics of writers. -/
inductive Err where
  | noMoreData
  | protocolViolation
  | unknownFrameType
  | tooMuchData
  | frameEncoding
  | streamLimit
  | panic
deriving DecidableEq, Repr

/-- `FrameType` (frame.rs:30-69).  The eight types of STREAM frames are one constructor with the bits
for an offset, a length and the end (frame.rs:39-46). -/
inductive FType where
  | padding
  | ping
  | ack
  | ackEcn
  | resetStream
  | stopSending
  | crypto
  | newToken
  | stream (off len fin : Bool)
  | maxData
  | maxStreamData
  | maxStreams (uni : Bool)
  | dataBlocked
  | streamDataBlocked
  | streamsBlocked (uni : Bool)
  | newConnectionId
  | retireConnectionId
  | pathChallenge
  | pathResponse
  | connectionClose (app : Bool)
  | handshakeDone
  | resetStreamAt
  | ackFrequency
  | datagram (len : Bool)
deriving DecidableEq, Repr

/-- A flag as a number. -/
def bit (b : Bool) (v : Nat) : Nat := if b then v else 0

/-- The code of a type (frame.rs:30-68). -/
def FType.code : FType → Nat
  | .padding => 0x0
  | .ping => 0x1
  | .ack => 0x2
  | .ackEcn => 0x3
  | .resetStream => 0x4
  | .stopSending => 0x5
  | .crypto => 0x6
  | .newToken => 0x7
  | .stream off len fin => 0x8 + bit off 4 + bit len 2 + bit fin 1
  | .maxData => 0x10
  | .maxStreamData => 0x11
  | .maxStreams uni => 0x12 + bit uni 1
  | .dataBlocked => 0x14
  | .streamDataBlocked => 0x15
  | .streamsBlocked uni => 0x16 + bit uni 1
  | .newConnectionId => 0x18
  | .retireConnectionId => 0x19
  | .pathChallenge => 0x1a
  | .pathResponse => 0x1b
  | .connectionClose app => 0x1c + bit app 1
  | .handshakeDone => 0x1e
  | .resetStreamAt => 0x24
  | .ackFrequency => 0xaf
  | .datagram len => 0x30 + bit len 1

/-- All types (frame.rs:30-68). -/
def FType.all : List FType :=
  [.padding, .ping, .ack, .ackEcn, .resetStream, .stopSending, .crypto, .newToken,
   .stream false false false, .stream false false true, .stream false true false, .stream false true true,
   .stream true false false, .stream true false true, .stream true true false, .stream true true true,
   .maxData, .maxStreamData, .maxStreams false, .maxStreams true, .dataBlocked, .streamDataBlocked,
   .streamsBlocked false, .streamsBlocked true, .newConnectionId, .retireConnectionId, .pathChallenge,
   .pathResponse, .connectionClose false, .connectionClose true, .handshakeDone, .resetStreamAt,
   .ackFrequency, .datagram false, .datagram true]

/-- `FrameType::try_from` (frame.rs:86-88) with `from_repr`. -/
def FType.ofCode (n : Nat) : Except Err FType :=
  match FType.all.find? (fun t => t.code == n) with
  | some t => .ok t
  | none => .error .unknownFrameType

/-- `Frame` (frame.rs:162-262).  The kind of streams of MAX_STREAMS and STREAMS_BLOCKED, and the kind of
error of CONNECTION_CLOSE (frame.rs:131-135), are flags.  Ranges of ACK are pairs of gap and length. -/
inductive Frame where
  | padding (n : Nat)
  | ping
  | ack (largest delay first : Nat) (ranges : List (Nat × Nat)) (ecn : Option (Nat × Nat × Nat))
  | resetStream (id err final : Nat)
  | resetStreamAt (id err final reliable : Nat)
  | stopSending (id err : Nat)
  | crypto (off : Nat) (data : Bytes)
  | newToken (token : Bytes)
  | stream (id off : Nat) (data : Bytes) (fin fill : Bool)
  | maxData (m : Nat)
  | maxStreamData (id m : Nat)
  | maxStreams (uni : Bool) (m : Nat)
  | dataBlocked (l : Nat)
  | streamDataBlocked (id l : Nat)
  | streamsBlocked (uni : Bool) (l : Nat)
  | newConnectionId (seq retire : Nat) (cid token : Bytes)
  | retireConnectionId (seq : Nat)
  | pathChallenge (data : Bytes)
  | pathResponse (data : Bytes)
  | connectionClose (app : Bool) (code ftype : Nat) (reason : Bytes)
  | handshakeDone
  | ackFrequency (seq tolerance delay : Nat) (ignoreOrder : Bool)
  | datagram (data : Bytes) (fill : Bool)
deriving DecidableEq, Repr

/-- `stream_type` (frame.rs:326-337). -/
def streamType (fin nonzero fill : Bool) : FType := .stream nonzero (!fill) fin

/-- `get_type` (frame.rs:266-306). -/
def Frame.type : Frame → FType
  | .padding _ => .padding
  | .ping => .ping
  | .ack .. => .ack
  | .resetStream .. => .resetStream
  | .resetStreamAt .. => .resetStreamAt
  | .stopSending .. => .stopSending
  | .crypto .. => .crypto
  | .newToken _ => .newToken
  | .stream _ off _ fin fill => streamType fin (decide (off > 0)) fill
  | .maxData _ => .maxData
  | .maxStreamData .. => .maxStreamData
  | .maxStreams uni _ => .maxStreams uni
  | .dataBlocked _ => .dataBlocked
  | .streamDataBlocked .. => .streamDataBlocked
  | .streamsBlocked uni _ => .streamsBlocked uni
  | .newConnectionId .. => .newConnectionId
  | .retireConnectionId _ => .retireConnectionId
  | .pathChallenge _ => .pathChallenge
  | .pathResponse _ => .pathResponse
  | .connectionClose app .. => .connectionClose app
  | .handshakeDone => .handshakeDone
  | .ackFrequency .. => .ackFrequency
  | .datagram _ fill => .datagram fill

/-- `is_stream` (frame.rs:309-323). -/
def Frame.isStream : Frame → Bool
  | .resetStream .. | .resetStreamAt .. | .stopSending .. | .stream .. | .maxData _ | .maxStreamData ..
  | .maxStreams .. | .dataBlocked _ | .streamDataBlocked .. | .streamsBlocked .. => true
  | _ => false

/-- `ack_eliciting` (frame.rs:342-347). -/
def Frame.ackEliciting : Frame → Bool
  | .ack .. | .padding _ | .connectionClose .. => false
  | _ => true

/-- `path_probing` (frame.rs:352-360). -/
def Frame.pathProbing : Frame → Bool
  | .padding _ | .newConnectionId .. | .pathChallenge _ | .pathResponse _ => true
  | _ => false

/-- The types of packets that carry frames (packet/mod.rs:61-71). -/
inductive PType where
  | initial
  | zeroRtt
  | handshake
  | short
deriving DecidableEq, Repr

/-- `is_allowed` (frame.rs:434-449). -/
def Frame.isAllowed (f : Frame) (pt : PType) : Bool :=
  match f with
  | .padding _ | .ping => true
  | .crypto .. | .ack .. | .connectionClose false .. => decide (pt ≠ .zeroRtt)
  | .newToken _ | .connectionClose true .. | .pathResponse _ | .handshakeDone => decide (pt = .short)
  | _ => decide (pt = .zeroRtt) || decide (pt = .short)

/-! ## Decoding -/

/-- `d` (frame.rs:470-472). -/
def d {α : Type} : Option α → Except Err α
  | some v => .ok v
  | none => .error .noMoreData

/-- `dv` (frame.rs:473-475). -/
def dv (b : Bytes) : Except Err (Nat × Bytes) := d (decodeVarint b)

/-- `skip_while` (neqo-common/src/codec.rs:76-84). -/
def skipWhile (v : UInt8) : Bytes → Nat × Bytes
  | [] => (0, [])
  | x :: xs => if x = v then ((skipWhile v xs).1 + 1, (skipWhile v xs).2) else (0, x :: xs)

/-- The loop reading ranges of ACK (frame.rs:492-498). -/
def decodeAckRanges : Nat → Bytes → Except Err (List (Nat × Nat) × Bytes)
  | 0, b => .ok ([], b)
  | n + 1, b => do
    let (gap, b) ← dv b
    let (range, b) ← dv b
    let (rs, b) ← decodeAckRanges n b
    return ((gap, range) :: rs, b)

/-- `MAX_ACK_RANGE_COUNT` (frame.rs:468). -/
def maxAckRangeCount : Nat := 32 * 1024

/-- The counts of ACK with ECN (frame.rs:501-505). -/
def decodeEcn (ecn : Bool) (b : Bytes) : Except Err (Option (Nat × Nat × Nat) × Bytes) :=
  if ecn then do
    let (x, b) ← dv b
    let (y, b) ← dv b
    let (z, b) ← dv b
    return (some (x, y, z), b)
  else .ok (none, b)

/-- `decode_ack` (frame.rs:477-511). -/
def decodeAckFrame (ecn : Bool) (b : Bytes) : Except Err (Frame × Bytes) := do
  let (la, b) ← dv b
  let (ad, b) ← dv b
  let (nr, b) ← dv b
  if nr < maxAckRangeCount then
    let (fa, b) ← dv b
    let (rs, b) ← decodeAckRanges nr b
    let (e, b) ← decodeEcn ecn b
    return (.ack la ad fa rs e, b)
  else .error .tooMuchData

/-- The data of a frame that may extend to the end of the packet (frame.rs:592-599, 710-717). -/
def decodeData (fill : Bool) (b : Bytes) : Except Err (Bytes × Bytes) :=
  if fill then .ok (b, []) else d (decodeVvec b)

/-- A field that may be absent (frame.rs:585-589, 680-684). -/
def optVar (present : Bool) (b : Bytes) : Except Err (Nat × Bytes) := if present then dv b else .ok (0, b)

/-- `ConnectionId::MAX_LEN` (cid.rs:40). -/
def maxCidLen : Nat := 20

/-- What follows the type of a frame (frame.rs:529-719). -/
def decodeBody (t : FType) (b : Bytes) : Except Err (Frame × Bytes) :=
  match t with
  | .padding =>
    if 1 + (skipWhile 0 b).1 < 2 ^ 16 then .ok (.padding (1 + (skipWhile 0 b).1), (skipWhile 0 b).2)
    else .error .tooMuchData
  | .ping => .ok (.ping, b)
  | .resetStream => do
    let (id, b) ← dv b
    let (err, b) ← dv b
    let (final, b) ← dv b
    return (.resetStream id err final, b)
  | .resetStreamAt => do
    let (id, b) ← dv b
    let (err, b) ← dv b
    let (final, b) ← dv b
    let (reliable, b) ← dv b
    if reliable > final then .error .frameEncoding
    else return (.resetStreamAt id err final reliable, b)
  | .ack => decodeAckFrame false b
  | .ackEcn => decodeAckFrame true b
  | .stopSending => do
    let (id, b) ← dv b
    let (err, b) ← dv b
    return (.stopSending id err, b)
  | .crypto => do
    let (off, b) ← dv b
    let (data, b) ← d (decodeVvec b)
    if off + data.length > maxVarint then .error .frameEncoding
    else return (.crypto off data, b)
  | .newToken => do
    let (token, b) ← d (decodeVvec b)
    if token = [] then .error .frameEncoding
    else return (.newToken token, b)
  | .stream hasOff hasLen fin => do
    let (id, b) ← dv b
    let (off, b) ← optVar hasOff b
    let (data, b) ← decodeData (!hasLen) b
    if off + data.length > maxVarint then .error .frameEncoding
    else return (.stream id off data fin (!hasLen), b)
  | .maxData => do
    let (m, b) ← dv b
    return (.maxData m, b)
  | .maxStreamData => do
    let (id, b) ← dv b
    let (m, b) ← dv b
    return (.maxStreamData id m, b)
  | .maxStreams uni => do
    let (m, b) ← dv b
    if m > 2 ^ 60 then .error .streamLimit
    else return (.maxStreams uni m, b)
  | .dataBlocked => do
    let (l, b) ← dv b
    return (.dataBlocked l, b)
  | .streamDataBlocked => do
    let (id, b) ← dv b
    let (l, b) ← dv b
    return (.streamDataBlocked id l, b)
  | .streamsBlocked uni => do
    let (m, b) ← dv b
    if m > 2 ^ 60 then .error .streamLimit
    else return (.streamsBlocked uni m, b)
  | .newConnectionId => do
    let (seq, b) ← dv b
    let (retire, b) ← dv b
    if retire > seq then .error .frameEncoding
    else
      let (cid, b) ← d (decodeVec 1 b)
      if cid = [] ∨ cid.length > maxCidLen then .error .frameEncoding
      else
        let (token, b) ← d (decode 16 b)
        return (.newConnectionId seq retire cid token, b)
  | .retireConnectionId => do
    let (seq, b) ← dv b
    return (.retireConnectionId seq, b)
  | .pathChallenge => do
    let (data, b) ← d (decode 8 b)
    return (.pathChallenge data, b)
  | .pathResponse => do
    let (data, b) ← d (decode 8 b)
    return (.pathResponse data, b)
  | .connectionClose app => do
    let (code, b) ← dv b
    let (ftype, b) ← optVar (!app) b
    let (reason, b) ← d (decodeVvec b)
    return (.connectionClose app code ftype reason, b)
  | .handshakeDone => .ok (.handshakeDone, b)
  | .ackFrequency => do
    let (seq, b) ← dv b
    let (tolerance, b) ← dv b
    if tolerance = 0 then .error .frameEncoding
    else
      let (delay, b) ← dv b
      let (ignore, b) ← d (decodeN 1 b)
      if ignore = 0 then return (.ackFrequency seq tolerance delay false, b)
      else if ignore = 1 then return (.ackFrequency seq tolerance delay true, b)
      else .error .frameEncoding
  | .datagram hasLen => do
    let (data, b) ← decodeData (!hasLen) b
    return (.datagram data (!hasLen), b)

/-- `Frame::decode` (frame.rs:458-724). -/
def decode (b : Bytes) : Except Err (Frame × Bytes) := do
  let (t, r) ← dv b
  if varintLen t ≠ some (b.length - r.length) then .error .protocolViolation
  else
    let t ← FType.ofCode t
    decodeBody t r

/-- What the loop of `process_packet` (connection/mod.rs:1979-1999) reads, up to the first error, with
the number of rounds bounded by the length.  What each frame does is left out, but not the check that
it is allowed (connection/mod.rs:3364-3367). -/
def decodeLoop (pt : PType) : Nat → Bytes → Except Err (List Frame)
  | 0, _ => .ok []
  | n + 1, b =>
    if b = [] then .ok []
    else do
      let (f, b) ← decode b
      if !f.isAllowed pt then .error .protocolViolation
      else
        let fs ← decodeLoop pt n b
        return f :: fs

/-- The frames of a packet (connection/mod.rs:1960-1999). -/
def decodePacket (pt : PType) (b : Bytes) : Except Err (List Frame) :=
  if b = [] then .error .protocolViolation else decodeLoop pt b.length b

/-- Whether a packet asks for an acknowledgment, and whether it only probes a path
(connection/mod.rs:1977-1978, 1986-1987). -/
def packetFlags (fs : List Frame) : Bool × Bool :=
  fs.foldl (fun a f => (a.1 || f.ackEliciting, a.2 && f.pathProbing)) (false, true)

/-! ## Writing -/

/-- `encode_varint`; its panic (neqo-common/src/codec.rs:303-315) is an error here. -/
def ev (v : Nat) : Except Err Bytes :=
  match encodeVarint v with
  | some e => .ok e
  | none => .error .panic

/-- `varint_len`; its panic (neqo-common/src/codec.rs:438-446) is an error here. -/
def lv (v : Nat) : Except Err Nat :=
  match varintLen v with
  | some e => .ok e
  | none => .error .panic

/-- Several integers, one after the other (packet/mod.rs:463-467). -/
def evs : List Nat → Except Err Bytes
  | [] => .ok []
  | v :: vs => do
    let e ← ev v
    let es ← evs vs
    return e ++ es

/-- The space that they need (packet/mod.rs:456-460). -/
def lvs : List Nat → Except Err Nat
  | [] => .ok 0
  | v :: vs => do
    let e ← lv v
    let es ← lvs vs
    return e + es

/-- `encode_vvec`; its panic (neqo-common/src/codec.rs:358-360) is an error here. -/
def evv (b : Bytes) : Except Err Bytes :=
  match encodeVvec b with
  | some e => .ok e
  | none => .error .panic

/-- `write_varint_frame` (packet/mod.rs:455-472). -/
def writeVarintFrame (rem : Nat) (values : List Nat) : Except Err (Option Bytes) := do
  let n ← lvs values
  if n ≤ rem then
    let e ← evs values
    return some e
  else return none

/-- RESET_STREAM and RESET_STREAM_AT (send_stream.rs:1231-1246). -/
def writeReset (rem id err final reliable : Nat) : Except Err (Option Bytes) :=
  if reliable = 0 then writeVarintFrame rem [FType.resetStream.code, id, err, final]
  else writeVarintFrame rem [FType.resetStreamAt.code, id, err, final, reliable]

/-- DATA_BLOCKED (fc.rs:178). -/
def writeDataBlocked (rem l : Nat) : Except Err (Option Bytes) := writeVarintFrame rem [FType.dataBlocked.code, l]

/-- STREAM_DATA_BLOCKED (fc.rs:197-201). -/
def writeStreamDataBlocked (rem id l : Nat) : Except Err (Option Bytes) :=
  writeVarintFrame rem [FType.streamDataBlocked.code, id, l]

/-- STREAMS_BLOCKED (fc.rs:223-227). -/
def writeStreamsBlocked (rem : Nat) (uni : Bool) (l : Nat) : Except Err (Option Bytes) :=
  writeVarintFrame rem [(FType.streamsBlocked uni).code, l]

/-- MAX_DATA (fc.rs:472). -/
def writeMaxData (rem m : Nat) : Except Err (Option Bytes) := writeVarintFrame rem [FType.maxData.code, m]

/-- MAX_STREAM_DATA (fc.rs:531-535). -/
def writeMaxStreamData (rem id m : Nat) : Except Err (Option Bytes) :=
  writeVarintFrame rem [FType.maxStreamData.code, id, m]

/-- MAX_STREAMS (fc.rs:598-602). -/
def writeMaxStreams (rem : Nat) (uni : Bool) (m : Nat) : Except Err (Option Bytes) :=
  writeVarintFrame rem [(FType.maxStreams uni).code, m]

/-- STOP_SENDING (recv_stream.rs:1275-1279). -/
def writeStopSending (rem id err : Nat) : Except Err (Option Bytes) :=
  writeVarintFrame rem [FType.stopSending.code, id, err]

/-- ACK_FREQUENCY (ackrate.rs:48-56): the last field is one byte, zero. -/
def writeAckFrequency (rem seq tolerance delay : Nat) : Except Err (Option Bytes) :=
  writeVarintFrame rem [FType.ackFrequency.code, seq, tolerance, delay, 0]

/-- PING and HANDSHAKE_DONE (pmtud.rs:164, connection/mod.rs:2524, connection/state.rs:185-194); the
latter if there is room. -/
def writePing : Except Err Bytes := ev FType.ping.code

/-- HANDSHAKE_DONE (connection/state.rs:185-194). -/
def writeHandshakeDone (rem : Nat) : Except Err (Option Bytes) :=
  if 1 ≤ rem then do
    let e ← ev FType.handshakeDone.code
    return some e
  else .ok none

/-- RETIRE_CONNECTION_ID (path.rs:414-420). -/
def writeRetire (rem seq : Nat) : Except Err (Option Bytes) := do
  let n ← lv seq
  if rem < 1 + n then return none
  else
    let e ← evs [FType.retireConnectionId.code, seq]
    return some e

/-- PATH_CHALLENGE and PATH_RESPONSE (path.rs:860-890). -/
def writePath (rem : Nat) (t : FType) (data : Bytes) : Except Err (Option Bytes) :=
  if rem < 9 then .ok none
  else do
    let e ← ev t.code
    return some (e ++ data)

/-- NEW_CONNECTION_ID (cid.rs:290-308). -/
def writeNewConnectionId (rem seq : Nat) (cid token : Bytes) : Except Err (Option Bytes) := do
  let n ← lv seq
  if rem < 1 + n + 1 + 1 + cid.length + 16 then return none
  else
    let e ← evs [FType.newConnectionId.code, seq, 0]
    match encodeVec 1 cid with
    | none => .error .panic
    | some c => return some (e ++ c ++ token)

/-- NEW_TOKEN (addr_valid.rs:434-439) with its length (addr_valid.rs:400-402). -/
def writeNewToken (rem : Nat) (token : Bytes) : Except Err (Option Bytes) := do
  let n ← lv token.length
  if 1 + (n + token.length) ≤ rem then
    let e ← ev FType.newToken.code
    let v ← evv token
    return some (e ++ v)
  else return none

/-- A chunk of CRYPTO data (crypto.rs:1654-1678): the bytes and the length of the data in them. -/
def writeCrypto (rem off : Nat) (data : Bytes) : Except Err (Option (Bytes × Nat)) := do
  let n ← lv off
  let header := 1 + n + 1
  if rem < header + 1 then return none
  else
    let length := min data.length (rem - header)
    let m ← lv length
    let header := header + m - 1
    if rem < header then .error .panic
    else
      let length := min data.length (rem - header)
      let e ← evs [FType.crypto.code, off]
      let v ← evv (data.take length)
      return some (e ++ v, length)

/-- The data of a STREAM frame (send_stream.rs:1112-1116). -/
def evData (fill : Bool) (data : Bytes) : Except Err Bytes := if fill then .ok data else evv data

/-- The bytes of a STREAM frame (send_stream.rs:1106-1118). -/
def streamBytes (id off : Nat) (data : Bytes) (fin fill : Bool) : Except Err Bytes := do
  let e ← evs [(streamType fin (decide (off > 0)) fill).code, id]
  let o ← evs (if off > 0 then [off] else [])
  let v ← evData fill data
  return e ++ o ++ v

/-- The length, and whether to fill the packet (send_stream.rs:1036-1054). -/
def lengthAndFill (dataLen space : Nat) : Except Err (Nat × Bool) :=
  if dataLen ≥ space then .ok (space, true)
  else do
    let n ← lv (min (space - 1) dataLen)
    return (dataLen, decide (dataLen + n + 2 > space))

/-- The space that the fields before the data need (send_stream.rs:1086-1092). -/
def streamOverhead (id off : Nat) : Except Err Nat := do
  let n ← lv id
  let m ← lvs (if off > 0 then [off] else [])
  return 1 + n + m

/-- A STREAM frame (send_stream.rs:1085-1118): its bytes, the length of its data, and whether it fills
the packet.  The end of the stream is at `finOff`. -/
def writeStream (rem id off : Nat) (data : Bytes) (finOff : Option Nat) : Except Err (Option (Bytes × Nat × Bool)) := do
  let overhead ← streamOverhead id off
  if overhead > rem then return none
  else
    let (length, fill) ← lengthAndFill data.length (rem - overhead)
    let fin := decide (finOff = some (off + length))
    if length = 0 ∧ fin = false then return none
    else
      let e ← streamBytes id off (data.take length) fin fill
      return some (e, length, fill)

/-- A DATAGRAM frame (quic_datagrams.rs:107-126), and whether it fills the packet. -/
def writeDatagram (rem : Nat) (data : Bytes) : Except Err (Option (Bytes × Bool)) :=
  if data.length + 1 ≤ rem then do
    let n ← lv data.length
    if rem ≥ 1 + n + data.length + 2 then
      let e ← ev (FType.datagram true).code
      let v ← evv data
      return some (e ++ v, false)
    else
      let e ← ev (FType.datagram false).code
      return some (e ++ data, true)
  else .ok none

/-- The fields of an ACK frame: `none` is the panic of an integer that is too large
(tracking.rs:473-502).  The subtractions (tracking.rs:489-490) are in `Verif.Acks.Model`. -/
def ackBytes (largest delay first : Nat) (ranges : List (Nat × Nat)) (ecn : Option (Nat × Nat × Nat)) :
    Except Err Bytes := do
  let e ← evs ([(if ecn.isSome then FType.ackEcn else FType.ack).code, largest, delay, ranges.length, first])
  let r ← evs (ranges.flatMap (fun p => [p.1, p.2]))
  let c ← evs (match ecn with
    | some (x, y, z) => [x, y, z]
    | none => [])
  return e ++ r ++ c

/-- `USEFUL_ACK_LEN` (tracking.rs:409). -/
def usefulAckLen : Nat := 1 + 8 + 8 + 1 + 8 + 3 * 8

/-- The number of ranges that an ACK may have (tracking.rs:440-446), with `MAX_ACKS_PER_FRAME`
(tracking.rs:174). -/
def maxRanges (rem : Nat) : Option Nat :=
  if rem < usefulAckLen then none else some (min (1 + (rem - usefulAckLen) / 16) 32)

/-- `ClosingFrame::MIN_LENGTH` (connection/state.rs:124). -/
def closeMinLen : Nat := 1 + 8 + 8 + 2 + 8

/-- CONNECTION_CLOSE (connection/state.rs:126-154). -/
def writeClose (rem : Nat) (app : Bool) (code ftype : Nat) (reason : Bytes) : Except Err (Option Bytes) :=
  if rem < closeMinLen then .ok none
  else do
    let available := min 256 rem
    let n ← lv reason.length
    let reason := if available < n + reason.length then reason.take (available - 2) else reason
    let e ← evs (if app then [(FType.connectionClose true).code, code] else [(FType.connectionClose false).code, code, ftype])
    let v ← evv reason
    return some (e ++ v)

end Neqo.Frm
