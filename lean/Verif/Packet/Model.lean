import Verif.Codec.Lemmas
import Verif.Keys.Pn
import Verif.Lib.Basic

/-!
# Packets: `neqo-transport/src/packet/mod.rs`

The builder that writes packets into a datagram, and the reader that takes them apart
again.  Cryptography is a pair of functions: `enc`/`dec` for the AEAD and `mask` for
header protection (nss, crypto.rs:696-772).  The counters in `CryptoDxState` are in
`Verif/Keys`.
-/
namespace Neqo.Pkt
open Neqo.Codec (Bytes beBytes beVal)

/-- `enum Version` (version.rs:14-22), with the feature `draft-29`. -/
inductive Version where
  | v2 | v1 | draft29
  deriving Repr, DecidableEq

/-- `Version::wire_version` (version.rs:31-33). -/
def Version.wire : Version → Nat
  | .v2 => 0x6b3343cf
  | .v1 => 1
  | .draft29 => 0xff00001d

/-- `TryFrom<Wire> for Version` (version.rs:131-147). -/
def Version.ofWire (w : Nat) : Option Version :=
  if w = 1 then some .v1
  else if w = 0x6b3343cf then some .v2
  else if w = 0xff00001d then some .draft29
  else none

/-- `Version::SCONE1` and `SCONE2` (version.rs:28). -/
def scone1 : Nat := 0x6f7dc0fd
def scone2 : Nat := 0xef7dc0fd

/-- `enum Type` (packet/mod.rs:62-72). -/
inductive Ty where
  | initial | zeroRtt | handshake | retry | short | otherVersion | versionNegotiation
  deriving Repr, DecidableEq

/-- `Type::is_long` (packet/mod.rs:89-94). -/
def Ty.isLong : Ty → Bool
  | .initial | .zeroRtt | .handshake | .retry => true
  | _ => false

/-- `Type::from_byte` (packet/mod.rs:75-79). -/
def Ty.fromByte (t : UInt8) (v : Version) : Ty :=
  let x := (t - (if v = .v2 then 1 else 0)) &&& 3
  if x = 0 then .initial else if x = 1 then .zeroRtt else if x = 2 then .handshake else .retry

/-- The discriminants (packet/mod.rs:65-68). -/
def Ty.repr : Ty → UInt8
  | .initial => 0
  | .zeroRtt => 1
  | .handshake => 2
  | .retry => 3
  | _ => 4

/-- `Type::to_byte` (packet/mod.rs:82-86). -/
def Ty.toByte (t : Ty) (v : Version) : Except Err UInt8 :=
  if t.isLong then .ok ((t.repr + (if v = .v2 then 1 else 0)) &&& 3) else .error .panic

/-- `CryptoDxState` for writing (crypto.rs:696-753, 793-797): the AEAD, and the mask for
header protection. -/
structure Seal where
  expansion : Nat
  enc : Nat → Bytes → Bytes → Bytes
  mask : Bytes → Bytes

/-! ## Writing -/

/-- `struct Builder` and `BuilderOffsets` (packet/mod.rs:122-141).  `buf` are the bytes of
this datagram. -/
structure Builder where
  buf : Bytes
  pn : Nat
  hdrStart : Nat
  hdrEnd : Nat
  mask : UInt8
  lenOff : Nat
  pnStart : Nat
  pnEnd : Nat
  limit : Nat
  padding : Bool
  deriving Repr, DecidableEq

/-- The fields that `short` and `long` set alike (packet/mod.rs:256-267, 300-311). -/
def Builder.start (buf : Bytes) (hdrStart : Nat) (mask : UInt8) (limit : Nat) : Builder :=
  { buf, pn := 2 ^ 64 - 1, hdrStart, hdrEnd := hdrStart, mask, lenOff := 0, pnStart := 0, pnEnd := 0,
    limit, padding := false }

/-- `Builder::short` (packet/mod.rs:228-261). -/
def Builder.short (buf : Bytes) (keyPhase : Bool) (dcid : Option Bytes) (limit : Nat) : Builder :=
  if limit > buf.length ∧ 5 + (dcid.map List.length).getD 0 < limit - buf.length then
    Builder.start (buf ++ [0x40 ||| (if keyPhase then 4 else 0)] ++ dcid.getD []) buf.length 0x1f limit
  else Builder.start buf buf.length 0x1f 0

/-- `encode_vec(1, _)` (codec.rs:327-329). -/
def vec1 (bs : Bytes) : Bytes := beBytes 1 bs.length ++ bs

/-- `Builder::long` (packet/mod.rs:268-307). -/
def Builder.long (buf : Bytes) (ty : Ty) (v : Version) (dcid scid : Option Bytes) (limit : Nat) :
    Except Err Builder := do
  if limit > buf.length ∧
      11 + (dcid.map List.length).getD 0 + (scid.map List.length).getD 0 < limit - buf.length then
    let t ← ty.toByte v
    pure (Builder.start (buf ++ [(0xc0 : UInt8) ||| (t <<< 4)] ++ beBytes 4 v.wire ++ vec1 (dcid.getD []) ++
      vec1 (scid.getD [])) buf.length 0x0f limit)
  else pure (Builder.start buf buf.length 0x0f 0)

/-- `Builder::is_long` (packet/mod.rs:309-311). -/
def Builder.isLong (b : Builder) : Except Err Bool :=
  match b.buf[b.hdrStart]? with
  | none => .error .panic
  | some x => .ok (x &&& 0x80 = 0x80)

/-- `Builder::remaining` (packet/mod.rs:328-330). -/
def Builder.remaining (b : Builder) : Nat := b.limit - b.buf.length

/-- `Builder::is_full` (packet/mod.rs:334-337). -/
def Builder.isFull (b : Builder) : Bool := b.limit < b.buf.length + 2

/-- `Builder::pad` (packet/mod.rs:356-363). -/
def Builder.pad (b : Builder) : Except Err (Builder × Bool) := do
  if b.padding then
    let long ← b.isLong
    if long then pure (b, false)
    else pure ({ b with buf := b.buf ++ List.replicate (b.limit - b.buf.length) 0 }, true)
  else pure (b, false)

/-- `Builder::scramble` (packet/mod.rs:366-372); `r` is the random byte. -/
def Builder.scramble (b : Builder) (quicBit : Bool) (r : UInt8) : Except Err Builder := do
  let long ← b.isLong
  let mask : UInt8 := (if quicBit then 0x40 else 0) ||| (if long then 0 else 0x20)
  pure { b with buf := b.buf.modify b.hdrStart (· ^^^ (r &&& mask)) }

/-- `Builder::initial_token` (packet/mod.rs:376-382). -/
def Builder.initialToken (b : Builder) (token : Bytes) : Except Err Builder :=
  match Codec.encodeVvec token with
  | none => .error .panic
  | some bs => if bs.length < b.remaining then .ok { b with buf := b.buf ++ bs } else .ok { b with limit := 0 }

/-- The packet number itself in `Builder::pn` (packet/mod.rs:409-423). -/
def Builder.putPn (b : Builder) (pn len : Nat) : Except Err Builder :=
  let w := min 4 len
  if w = 0 then .error .panic
  else
    let start := b.buf.length
    let buf := b.buf ++ beBytes w pn
    .ok { b with buf := buf.modify b.hdrStart (· ||| UInt8.ofNat (w - 1)), pnStart := start, pnEnd := buf.length,
                 hdrEnd := buf.length, pn := pn }

/-- `Builder::pn` (packet/mod.rs:393-423). -/
def Builder.putNumber (b : Builder) (pn len : Nat) : Except Err Builder :=
  if b.remaining < 4 then .ok { b with limit := 0 }
  else
    match b.isLong with
    | .error e => .error e
    | .ok false => b.putPn pn len
    | .ok true =>
      if b.remaining < 6 then .ok { b with limit := 0 }
      else { b with lenOff := b.buf.length, buf := b.buf ++ [0, 0] }.putPn pn len

/-- `Builder::write_len` (packet/mod.rs:426-430). -/
def Builder.writeLen (b : Builder) (expansion : Nat) : Builder :=
  let len := b.buf.length - (b.lenOff + 2) + expansion
  let hi : UInt8 := (0x40 : UInt8) ||| UInt8.ofNat ((len >>> 8) &&& 0x3f)
  let lo : UInt8 := UInt8.ofNat (len &&& 0xff)
  { b with buf := (b.buf.set b.lenOff hi).set (b.lenOff + 1) lo }

/-- `Builder::pad_for_crypto` (packet/mod.rs:432-450) with `extra_padding`
(crypto.rs:795-797). -/
def Builder.padForCrypto (b : Builder) (expansion : Nat) : Builder :=
  { b with buf := b.buf ++ List.replicate (b.pnStart + 4 + (16 - expansion) - b.buf.length) 0 }

/-- The loop that masks the packet number (packet/mod.rs:518-520), with the byte
`mask[i + 1]` for byte `i`. -/
def maskPn (mask : Bytes) (start : Nat) : Nat → Bytes → Bytes
  | 0, buf => buf
  | k + 1, buf => (maskPn mask start k buf).modify (start + k) (· ^^^ mask.getD (k + 1) 0)

/-- `Builder::build` (packet/mod.rs:479-524). -/
def Builder.build (b : Builder) (c : Seal) : Except Err Bytes :=
  if b.buf.length > b.limit then .error .panic
  else
    let b1 := b.padForCrypto c.expansion
    let b2 := if b1.lenOff > 0 then b1.writeLen c.expansion else b1
    let header := (b2.buf.take b2.hdrEnd).drop b2.hdrStart
    let buf := b2.buf.take b2.hdrEnd ++ c.enc b2.pn header (b2.buf.drop b2.hdrEnd)
    let sampleStart := b2.hdrEnd + 4 - (b2.pnEnd - b2.pnStart)
    if buf.length < sampleStart + 16 then .error .panic
    else
      let mask := c.mask ((buf.drop sampleStart).take 16)
      let buf1 := buf.modify b2.hdrStart (· ^^^ (mask.getD 0 0 &&& b2.mask))
      .ok (maskPn mask b2.pnStart (b2.pnEnd - b2.pnStart) buf1)

/-- `Builder::abort` (packet/mod.rs:528-531). -/
def Builder.abort (b : Builder) : Bytes := b.buf.take b.hdrStart

/-- `Builder::packet_empty` (packet/mod.rs:535-537). -/
def Builder.packetEmpty (b : Builder) : Bool := b.buf.length = b.hdrEnd

/-- What `Connection::build_packet_header` uses (connection/mod.rs:2327-2381).  `rnd` is
the random byte for `scramble`, `pnLen` the length of the packet number. -/
structure HeaderArgs where
  ty : Ty
  version : Version
  dcid : Option Bytes
  scid : Option Bytes
  token : Bytes
  keyPhase : Bool
  quicBit : Bool
  rnd : UInt8
  pn : Nat
  pnLen : Nat
  deriving Repr, DecidableEq

/-- `Connection::build_packet_header` (connection/mod.rs:2327-2381). -/
def buildHeader (a : HeaderArgs) (buf : Bytes) (limit : Nat) : Except Err Builder := do
  let b ← if a.ty = .short then pure (Builder.short buf a.keyPhase a.dcid limit)
    else Builder.long buf a.ty a.version a.dcid a.scid limit
  let b ← if b.remaining > 0 then do
      let b ← b.scramble a.quicBit a.rnd
      if a.ty = .initial then b.initialToken a.token else pure b
    else pure b
  b.putNumber a.pn a.pnLen

/-! ## Reading -/

/-- `struct Public` (packet/mod.rs:568-590). -/
structure Public where
  ty : Ty
  dcid : Bytes
  scid : Option Bytes
  token : Bytes
  headerLen : Nat
  version : Option Nat
  data : Bytes
  scone : Option Nat
  deriving Repr, DecidableEq

/-- Errors of the reader: `Error::InvalidPacket`, `Error::NoMoreData`, `KeysPending`,
`KeysDiscarded`, `Decrypt` and `ProtocolViolation`. -/
inductive PErr where
  | invalid | noMoreData | keysPending | keysDiscarded | decrypt | protocolViolation | panic
  deriving Repr, DecidableEq

/-- `Public::opt` (packet/mod.rs:591-593). -/
def opt {α : Type} : Option α → Except PErr α
  | none => .error .noMoreData
  | some x => .ok x

/-- `Public::decode_long` (packet/mod.rs:598-625).  `data` is the whole packet, `d` what
has not been read, `exp` the size of the tag of a Retry. -/
def decodeLong (exp : Nat) (data d : Bytes) (ty : Ty) : Except PErr (Bytes × Nat × Bytes) := do
  if ty = .retry then
    let headerLen := data.length - d.length
    if d.length < exp then .error .invalid
    else
      let (token, d) ← opt (Codec.decode (d.length - exp) d)
      if token = [] then .error .invalid
      else
        let (_, d) ← opt (Codec.decode exp d)
        pure (token, headerLen, d)
  else
    let (token, d) ← if ty = .initial then opt (Codec.decodeVvec d) else pure ([], d)
    let (len, d) ← opt (Codec.decodeVarint d)
    let headerLen := data.length - d.length
    let (_, d) ← opt (Codec.decode len d)
    pure (token, headerLen, d)

/-- `Bitrate::from` (scone.rs:79-82). -/
def sconeRate (first : UInt8) (version : Nat) : Nat := version >>> 31 ||| (first &&& 0x3f).toNat <<< 1

/-- `Public::decode_inner` (packet/mod.rs:658-772).  `cid` is the decoder for connection
IDs, `exp` the size of the tag of a Retry, `other` whether unknown versions are accepted.
The loop runs at most twice, because a second SCONE packet is an error. -/
def decodeInner (cid : Bytes → Option (Bytes × Bytes)) (exp : Nat) (other : Bool) :
    Nat → Option Nat → Bytes → Except PErr (Public × Bytes)
  | 0, _, _ => .error .panic
  | n + 1, scone, data => do
    let (first, d) ← opt (Codec.decodeN 1 data)
    let first := UInt8.ofNat first
    if first &&& 0x80 = 0 then
      let (dcid, d) ← opt (cid d)
      if d.length < 20 then .error .invalid
      else pure ({ ty := .short, dcid, scid := none, token := [], headerLen := data.length - d.length,
                   version := none, data, scone }, [])
    else
      let (version, d) ← opt (Codec.decodeN 4 d)
      let (dcid, d) ← opt (Codec.decodeVec 1 d)
      let (scid, d) ← opt (Codec.decodeVec 1 d)
      if version = 0 then
        pure ({ ty := .versionNegotiation, dcid, scid := some scid, token := [],
                headerLen := data.length - d.length, version := none, data, scone }, [])
      else if version = scone1 ∨ version = scone2 then
        if scone.isSome then .error .invalid
        else decodeInner cid exp other n (some (sconeRate first version)) d
      else
        match Version.ofWire version with
        | none =>
          if other then
            pure ({ ty := .otherVersion, dcid, scid := some scid, token := [],
                    headerLen := data.length - d.length, version := some version, data, scone }, [])
          else .error .invalid
        | some v =>
          if dcid.length > 20 ∨ scid.length > 20 then .error .invalid
          else
            let ty := Ty.fromByte ((first >>> 4) &&& 3) v
            let (token, headerLen, d) ← decodeLong exp data d ty
            pure ({ ty, dcid, scid := some scid, token, headerLen, version := some v.wire,
                    data := data.take (data.length - d.length), scone }, d)

/-- `Public::decode` and `decode_server` (packet/mod.rs:633-650). -/
def decodePublic (cid : Bytes → Option (Bytes × Bytes)) (exp : Nat) (other : Bool) (data : Bytes) :
    Except PErr (Public × Bytes) :=
  decodeInner cid exp other 2 none data

/-- `Public::version` (packet/mod.rs:832-834). -/
def Public.version? (p : Public) : Option Version := p.version.bind Version.ofWire

/-- `Public::is_valid_initial` (packet/mod.rs:799-803). -/
def Public.isValidInitial (p : Public) : Bool :=
  p.ty = .initial && (p.dcid.length ≥ 8 || p.token ≠ [])

/-- The bytes of the packet number without protection (packet/mod.rs:906-914). -/
def unmaskPn (mask : Bytes) (bs : Bytes) : Bytes := List.zipWith (· ^^^ ·) bs (mask.drop 1)

/-- `Public::decrypt_header` (packet/mod.rs:874-924): the key phase, the packet number,
the end of the header, and the packet with its header in the clear.  `next` is the
packet number expected next. -/
def Public.decryptHeader (p : Public) (mask : Bytes → Bytes) (next : Nat) :
    Except PErr (Bool × Nat × Nat × Bytes) :=
  let sampleOffset := p.headerLen + 4
  if p.data.length < sampleOffset + 16 then .error .noMoreData
  else
    let m := mask ((p.data.drop sampleOffset).take 16)
    let bits : UInt8 := if p.ty = .short then 0x1f else 0x0f
    match p.data with
    | [] => .error .panic
    | x :: _ =>
      let first := x ^^^ (m.getD 0 0 &&& bits)
      let data1 := p.data.set 0 first
      let pnBytes := unmaskPn m ((data1.drop p.headerLen).take 4)
      let pnLen := ((first &&& 3) + 1).toNat
      let data2 := data1.take p.headerLen ++ pnBytes.take pnLen ++ data1.drop (p.headerLen + pnLen)
      let pn := Keys.decodePn next (beVal pnBytes >>> (8 * (4 - pnLen))) pnLen
      .ok (p.ty = .short && first &&& 4 = 4, pn, p.headerLen + pnLen, data2)

/-- The keys for reading (`CryptoStates::rx_hp`, `rx_pending`, `rx`,
crypto.rs:1007-1058): the mask with the packet number expected next, and the AEAD for a
key phase, which comes with the version its keys are for. -/
structure RxKeys where
  hp : Version → Ty → Option ((Bytes → Bytes) × Nat)
  pending : Ty → Bool
  rx : Version → Ty → Bool → Option (Version × (Nat → Bytes → Bytes → Option Bytes))

/-- `struct Decrypted` (packet/mod.rs:1099-1107), with the key phase. -/
structure Decrypted where
  version : Version
  ty : Ty
  pn : Nat
  dcid : Bytes
  scid : Option Bytes
  data : Bytes
  scone : Option Nat
  keyPhase : Bool
  deriving Repr, DecidableEq

/-- `Public::decrypt` (packet/mod.rs:929-1008), without key updates and the limits of
keys, which are in `Verif/Keys`. -/
def Public.decrypt (p : Public) (k : RxKeys) : Except PErr Decrypted :=
  if p.ty = .initial ∨ p.ty = .zeroRtt ∨ p.ty = .handshake ∨ p.ty = .short then
    let version := p.version?.getD .v1
    match k.hp version p.ty with
    | none => if k.pending p.ty then .error .keysPending else .error .keysDiscarded
    | some (mask, next) =>
      match p.decryptHeader mask next with
      | .error e => .error e
      | .ok (keyPhase, pn, headerEnd, data) =>
        match k.rx version p.ty keyPhase with
        | none => .error .decrypt
        | some (v, dec) =>
          match dec pn (data.take headerEnd) (data.drop headerEnd) with
          | none => .error .decrypt
          | some payload =>
            let reserved : UInt8 := if p.ty.isLong then 0x0c else 0x18
            if data.headD 0 &&& reserved ≠ 0 then .error .protocolViolation
            else .ok { version := v, ty := p.ty, pn, dcid := p.dcid, scid := p.scid, data := payload,
                       scone := p.scone, keyPhase }
  else .error .invalid

/-- What `Connection::input_path` does with packets, apart from taking a datagram apart:
`pre` is `preprocess_packet` after its check of the connection ID
(connection/mod.rs:1566-1725; `none` for everything but `Continue`), `good` is the
processing of a packet (connection/mod.rs:1840-1904), `bad` what is done when one cannot
be decrypted (connection/mod.rs:1906-1932); for both `none` ends the processing of the
datagram. -/
structure Input (σ : Type) where
  pre : σ → Public → Option σ
  keys : σ → RxKeys
  good : σ → Decrypted → Option σ
  bad : σ → PErr → Option σ

/-- The loop in `Connection::input_path` (connection/mod.rs:1829-1936), with the check in
`preprocess_packet` that all packets have the same connection ID
(connection/mod.rs:1559-1564).  `dcid` is that of the packets before.  Gives the packets
that were accepted. -/
def inputLoop {σ : Type} (i : Input σ) (cid : Bytes → Option (Bytes × Bytes)) (exp : Nat) :
    Nat → σ → Option Bytes → Bytes → σ × List Decrypted
  | 0, s, _, _ => (s, [])
  | n + 1, s, dcid, data =>
    if data = [] then (s, [])
    else
      match decodePublic cid exp false data with
      | .error _ => (s, [])
      | .ok (p, remainder) =>
        if dcid.any (· ≠ p.dcid) then (s, [])
        else
          match i.pre s p with
          | none => (s, [])
          | some s =>
            match p.decrypt (i.keys s) with
            | .ok d =>
              match i.good s d with
              | none => (s, [d])
              | some s =>
                let (s, ds) := inputLoop i cid exp n s (some d.dcid) remainder
                (s, d :: ds)
            | .error e =>
              match i.bad s e with
              | none => (s, [])
              | some s => inputLoop i cid exp n s (some p.dcid) remainder

/-- `Public::supported_versions` (packet/mod.rs:1014-1025). -/
def versionsFrom : Nat → Bytes → Except PErr (List Nat)
  | 0, _ => .error .panic
  | n + 1, d =>
    if d = [] then .ok []
    else
      match Codec.decodeN 4 d with
      | none => .error .noMoreData
      | some (v, d) =>
        match versionsFrom n d with
        | .error e => .error e
        | .ok vs => .ok (v :: vs)

def Public.supportedVersions (p : Public) : Except PErr (List Nat) :=
  if p.ty ≠ .versionNegotiation then .error .invalid
  else versionsFrom (p.data.length + 1) (p.data.drop p.headerLen)

/-! ## Retry and Version Negotiation -/

/-- `Builder::retry` (packet/mod.rs:155-183); `tag` is the AEAD over an empty plaintext,
`r` the random byte. -/
def retry (tag : Bytes → Bytes) (v : Version) (dcid scid token odcid : Bytes) (r : UInt8) : Except Err Bytes := do
  let t ← Ty.toByte .retry v
  let body := [(0xc0 : UInt8) ||| (t <<< 4) ||| (r &&& 0xf)] ++ beBytes 4 v.wire ++ vec1 dcid ++ vec1 scid ++ token
  pure (body ++ tag (vec1 odcid ++ body))

/-- `Public::is_valid_retry` (packet/mod.rs:776-796); `tagOf` is the tag for a version,
which decryption of an empty text compares with. -/
def Public.isValidRetry (p : Public) (exp : Nat) (tagOf : Version → Bytes → Bytes) (odcid : Bytes) : Bool :=
  if p.ty ≠ .retry then false
  else
    match p.version? with
    | none => false
    | some v =>
      if p.data.length ≤ exp then false
      else
        let header := p.data.take (p.data.length - exp)
        let tag := p.data.drop (p.data.length - exp)
        tagOf v (vec1 odcid ++ header) = tag

/-- `Builder::version_negotiation` (packet/mod.rs:187-215); `g` are the four random
bytes. -/
def versionNegotiation (dcid scid : Bytes) (clientVersion : Nat) (versions : List Version)
    (g0 g1 g2 g3 : UInt8) : Bytes :=
  [0x80 ||| (g3 &&& 0x7f)] ++ [0, 0, 0, 0] ++ vec1 dcid ++ vec1 scid ++
  (versions.map fun v => beBytes 4 v.wire).flatten ++
  [g0 &&& 0xf0 ||| 0x0a, g1 &&& 0xf0 ||| 0x0a, g2 &&& 0xf0 ||| 0x0a,
   UInt8.ofNat ((clientVersion + 0x10) % 2 ^ 32 &&& 0xf0) ||| 0x0a]

end Neqo.Pkt
