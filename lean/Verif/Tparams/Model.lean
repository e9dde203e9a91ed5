import Verif.Frames.Lemmas

/-!
# Transport parameters and versions (neqo-transport/src/tparams.rs, version.rs)

The parameters of a connection are a function from their ids; the code uses an `EnumMap`.  Sizes are
those of a target with 64 bits.  The parameter for tests (tparams.rs:62-63) is left out, as is the
`draft-29` feature, except that the models of version negotiation are for any set of versions and any
relation of compatibility.
-/
namespace Neqo.Tp
open Neqo.Codec

/-- The errors that reading distinguishes. -/
inductive Err where
  | noMoreData
  | transportParameter
  | streamLimit
  | tooMuchData
  | panic
deriving DecidableEq, Repr

/-- `Role` (neqo-common/src/lib.rs:102-105): of the one who reads. -/
inductive Role where
  | client
  | server
deriving DecidableEq, Repr

/-- `TransportParameterId` (tparams.rs:38-66). -/
inductive PId where
  | originalDestinationCid
  | idleTimeout
  | statelessResetToken
  | maxUdpPayloadSize
  | initialMaxData
  | initialMaxStreamDataBidiLocal
  | initialMaxStreamDataBidiRemote
  | initialMaxStreamDataUni
  | initialMaxStreamsBidi
  | initialMaxStreamsUni
  | ackDelayExponent
  | maxAckDelay
  | disableMigration
  | preferredAddress
  | activeConnectionIdLimit
  | initialSourceCid
  | retrySourceCid
  | versionInformation
  | resetStreamAt
  | scone
  | greaseQuicBit
  | minAckDelay
  | maxDatagramFrameSize
deriving DecidableEq, Repr

/-- The numbers of the ids (tparams.rs:37-61). -/
def PId.code : PId → Nat
  | .originalDestinationCid => 0x00
  | .idleTimeout => 0x01
  | .statelessResetToken => 0x02
  | .maxUdpPayloadSize => 0x03
  | .initialMaxData => 0x04
  | .initialMaxStreamDataBidiLocal => 0x05
  | .initialMaxStreamDataBidiRemote => 0x06
  | .initialMaxStreamDataUni => 0x07
  | .initialMaxStreamsBidi => 0x08
  | .initialMaxStreamsUni => 0x09
  | .ackDelayExponent => 0x0a
  | .maxAckDelay => 0x0b
  | .disableMigration => 0x0c
  | .preferredAddress => 0x0d
  | .activeConnectionIdLimit => 0x0e
  | .initialSourceCid => 0x0f
  | .retrySourceCid => 0x10
  | .versionInformation => 0x11
  | .resetStreamAt => 0x1d
  | .scone => 0x219e
  | .greaseQuicBit => 0x2ab2
  | .minAckDelay => 0xff02de1a
  | .maxDatagramFrameSize => 0x0020

/-- All ids, in the order of iteration. -/
def PId.all : List PId :=
  [.originalDestinationCid, .idleTimeout, .statelessResetToken, .maxUdpPayloadSize, .initialMaxData,
    .initialMaxStreamDataBidiLocal, .initialMaxStreamDataBidiRemote, .initialMaxStreamDataUni,
    .initialMaxStreamsBidi, .initialMaxStreamsUni, .ackDelayExponent, .maxAckDelay, .disableMigration,
    .preferredAddress, .activeConnectionIdLimit, .initialSourceCid, .retrySourceCid, .versionInformation,
    .resetStreamAt, .scone, .greaseQuicBit, .minAckDelay, .maxDatagramFrameSize]

/-- `try_from` (tparams.rs:83-85). -/
def PId.ofCode (n : Nat) : Option PId := PId.all.find? (fun i => i.code = n)

/-- `TransportParameter` (tparams.rs:148-162): addresses are bytes with a port. -/
inductive Value where
  | bytes (b : Bytes)
  | int (n : Nat)
  | empty
  | preferred (v4 v6 : Option (Bytes × Nat)) (cid srt : Bytes)
  | versions (current : Nat) (other : List Nat)
deriving DecidableEq, Repr

/-- `encode_uint` of `n` bytes; its panic (neqo-common/src/codec.rs:289-296) does not occur for the
lengths used here. -/
def uintBytes (n v : Nat) : Bytes := beBytes n v

/-- An address that may be absent (tparams.rs:204-215). -/
def addrBytes (n : Nat) : Option (Bytes × Nat) → Bytes
  | some (ip, port) => ip ++ uintBytes 2 port
  | none => List.replicate (n + 2) 0

/-- `encode_varint`, whose panic is an error here. -/
def ev (v : Nat) : Except Err Bytes :=
  match encodeVarint v with
  | some e => .ok e
  | none => .error .panic

/-- `encode_vvec` and `encode_vvec_with`, which produce the same (`Codec.C03_vvec_with_eq`); their panic
is an error here. -/
def evv (b : Bytes) : Except Err Bytes :=
  match encodeVvec b with
  | some e => .ok e
  | none => .error .panic

/-- What is written for a value, without its length (tparams.rs:189-230). -/
def Value.content : Value → Except Err Bytes
  | .bytes b => .ok b
  | .int n => ev n
  | .empty => .ok []
  | .preferred v4 v6 cid srt =>
    match encodeVec 1 cid with
    | none => .error .panic
    | some c => .ok (addrBytes 4 v4 ++ addrBytes 16 v6 ++ c ++ srt)
  | .versions current other => .ok (uintBytes 4 current ++ other.flatMap (uintBytes 4))

/-- `TransportParameter::encode` (tparams.rs:196-238). -/
def Value.encode (v : Value) (i : PId) : Except Err Bytes := do
  let t ← ev i.code
  let c ← v.content
  let e ← evv c
  return t ++ e

/-- `ok_or(Error::NoMoreData)`. -/
def d {α : Type} : Option α → Except Err α
  | some v => .ok v
  | none => .error .noMoreData

/-- An address with its port (tparams.rs:235-247, 250-264). -/
def decodeAddr (n : Nat) (b : Bytes) : Except Err (Option (Bytes × Nat) × Bytes) := do
  let (ip, b) ← d (decode n b)
  let (port, b) ← d (decodeN 2 b)
  if decide (ip = List.replicate n 0) != decide (port = 0) then .error .transportParameter
  else if port = 0 then return (none, b)
  else return (some (ip, port), b)

/-- `ConnectionId::MAX_LEN` (cid.rs:40). -/
def maxCidLen : Nat := 20

/-- `decode_preferred_address` (tparams.rs:240-282). -/
def decodePreferred (b : Bytes) : Except Err (Value × Bytes) := do
  let (v4, b) ← decodeAddr 4 b
  let (v6, b) ← decodeAddr 16 b
  if v4 = none ∧ v6 = none then .error .transportParameter
  else
    let (cid, b) ← d (decodeVec 1 b)
    if cid = [] ∨ cid.length > maxCidLen then .error .transportParameter
    else match decode 16 b with
      | none => .error .transportParameter
      | some (srt, b) => return (.preferred v4 v6 cid srt, b)

/-- `dv` (tparams.rs:285-294). -/
def decodeVersion (b : Bytes) : Except Err (Nat × Bytes) := do
  let (v, b) ← d (decodeN 4 b)
  if v = 0 then .error .transportParameter else return (v, b)

/-- The loop over the other versions (tparams.rs:298-300). -/
def decodeVersionList : Nat → Bytes → Except Err (List Nat × Bytes)
  | 0, b => .ok ([], b)
  | n + 1, b => do
    let (v, b) ← decodeVersion b
    let (vs, b) ← decodeVersionList n b
    return (v :: vs, b)

/-- `decode_versions` (tparams.rs:284-304). -/
def decodeVersions (b : Bytes) : Except Err (Value × Bytes) := do
  let (current, b) ← decodeVersion b
  let (other, b) ← decodeVersionList (b.length / 4) b
  return (.versions current other, b)

/-- An integer that satisfies a condition, or the error. -/
def decodeInt (p : Nat → Bool) (e : Err) (b : Bytes) : Except Err (Value × Bytes) :=
  match decodeVarint b with
  | some (v, b) => if p v then .ok (.int v, b) else .error e
  | none => .error e

/-- `MIN_INITIAL_PACKET_SIZE` (packet/mod.rs:37). -/
def minInitialPacketSize : Nat := 1200

/-- The value of a parameter (tparams.rs:314-386). -/
def decodeValue (role : Role) (i : PId) (b : Bytes) : Except Err (Value × Bytes) :=
  match i with
  | .originalDestinationCid | .retrySourceCid =>
    if role = .server then .error .transportParameter else .ok (.bytes b, [])
  | .initialSourceCid => .ok (.bytes b, [])
  | .statelessResetToken =>
    if role = .server ∨ b.length ≠ 16 then .error .transportParameter else .ok (.bytes b, [])
  | .idleTimeout | .initialMaxData | .initialMaxStreamDataBidiLocal | .initialMaxStreamDataBidiRemote
  | .initialMaxStreamDataUni | .maxDatagramFrameSize => decodeInt (fun _ => true) .transportParameter b
  | .maxAckDelay => decodeInt (fun v => decide (v < 1 <<< 14)) .transportParameter b
  | .initialMaxStreamsBidi | .initialMaxStreamsUni => decodeInt (fun v => decide (v ≤ 1 <<< 60)) .streamLimit b
  | .maxUdpPayloadSize => decodeInt (fun v => decide (v ≥ minInitialPacketSize)) .transportParameter b
  | .ackDelayExponent => decodeInt (fun v => decide (v ≤ 20)) .transportParameter b
  | .activeConnectionIdLimit => decodeInt (fun v => decide (v ≥ 2)) .transportParameter b
  | .disableMigration | .greaseQuicBit | .scone | .resetStreamAt => .ok (.empty, b)
  | .preferredAddress => if role = .server then .error .transportParameter else decodePreferred b
  | .minAckDelay => decodeInt (fun v => decide (v < 1 <<< 24)) .transportParameter b
  | .versionInformation => decodeVersions b

/-- `TransportParameter::decode` (tparams.rs:306-392). -/
def decodeParam (role : Role) (b : Bytes) : Except Err (Option (PId × Value) × Bytes) := do
  let (t, b) ← d (decodeVarint b)
  let (c, b) ← d (decodeVvec b)
  match PId.ofCode t with
  | none => return (none, b)
  | some i =>
    let (v, r) ← decodeValue role i c
    if r.length > 0 then .error .tooMuchData else return (some (i, v), b)

/-- `TransportParameters` (tparams.rs:396-398). -/
abbrev Params := PId → Option Value

/-- `set` (tparams.rs:402-404). -/
def Params.set (p : Params) (i : PId) (v : Value) : Params := fun j => if j = i then some v else p j

/-- `remove` (tparams.rs:407-409). -/
def Params.remove (p : Params) (i : PId) : Params := fun j => if j = i then none else p j

/-- The loop of `TransportParameters::decode` (tparams.rs:427-450), with the number of rounds bounded by
the length. -/
def decodeLoop (role : Role) : Nat → Params → Bytes → Except Err Params
  | 0, p, _ => .ok p
  | n + 1, p, b =>
    if b = [] then .ok p
    else do
      let (x, b) ← decodeParam role b
      match x with
      | none => decodeLoop role n p b
      | some (i, v) => if (p i).isSome then .error .transportParameter else decodeLoop role n (p.set i v) b

/-- `TransportParameters::decode` (tparams.rs:420-451). -/
def decodeParams (role : Role) (b : Bytes) : Except Err Params := decodeLoop role b.length (fun _ => none) b

/-- The loop of `encode_filtered` (tparams.rs:465-474). -/
def encodeList (p : Params) : List PId → Except Err Bytes
  | [] => .ok []
  | i :: is => do
    let e ← match p i with
      | some v => v.encode i
      | none => .ok []
    let es ← encodeList p is
    return e ++ es

/-- `encode_filtered` (tparams.rs:465-474). -/
def encodeParams (f : PId → Bool) (p : Params) : Except Err Bytes := encodeList p (PId.all.filter f)

/-- `filter_ch_outer` (tparams.rs:868-880). -/
def filterOuter : PId → Bool
  | .originalDestinationCid | .statelessResetToken | .initialSourceCid | .retrySourceCid | .versionInformation
  | .ackDelayExponent | .maxAckDelay | .maxUdpPayloadSize => true
  | _ => false

/-- `integer_default` (tparams.rs:494-515), with `DEFAULT_REMOTE_ACK_DELAY` (tracking.rs:169) in
milliseconds. -/
def integerDefault : PId → Option Nat
  | .idleTimeout | .initialMaxData | .initialMaxStreamDataBidiLocal | .initialMaxStreamDataBidiRemote
  | .initialMaxStreamDataUni | .initialMaxStreamsBidi | .initialMaxStreamsUni | .minAckDelay
  | .maxDatagramFrameSize => some 0
  | .maxUdpPayloadSize => some 65527
  | .ackDelayExponent => some 3
  | .maxAckDelay => some 25
  | .activeConnectionIdLimit => some 2
  | _ => none

/-- `get_integer` (tparams.rs:480-487). -/
def getInteger (p : Params) (i : PId) : Except Err Nat :=
  match integerDefault i with
  | none => .error .panic
  | some dflt =>
    match p i with
    | none => .ok dflt
    | some (.int x) => .ok x
    | some _ => .error .panic

/-- `set_integer` (tparams.rs:520-526). -/
def setInteger (p : Params) (i : PId) (v : Nat) : Except Err Params :=
  match integerDefault i with
  | some dflt => if dflt = v then .ok (p.remove i) else .ok (p.set i (.int v))
  | none => .error .panic

/-- The ids of parameters with bytes (tparams.rs:537-543). -/
def isBytes : PId → Bool
  | .originalDestinationCid | .initialSourceCid | .retrySourceCid | .statelessResetToken => true
  | _ => false

/-- `get_bytes` (tparams.rs:531-545). -/
def getBytes (p : Params) (i : PId) : Except Err (Option Bytes) :=
  if isBytes i then
    match p i with
    | none => .ok none
    | some (.bytes b) => .ok (some b)
    | some _ => .error .panic
  else .error .panic

/-- `set_bytes` (tparams.rs:549-559). -/
def setBytes (p : Params) (i : PId) (b : Bytes) : Except Err Params :=
  if isBytes i then .ok (p.set i (.bytes b)) else .error .panic

/-- The ids of empty parameters (tparams.rs:570-578). -/
def isEmpty : PId → Bool
  | .disableMigration | .greaseQuicBit | .scone | .resetStreamAt => true
  | _ => false

/-- `set_empty` (tparams.rs:563-573). -/
def setEmpty (p : Params) (i : PId) : Except Err Params :=
  if isEmpty i then .ok (p.set i .empty) else .error .panic

/-- `get_empty` (tparams.rs:608-614). -/
def getEmpty (p : Params) (i : PId) : Except Err Bool :=
  match p i with
  | none => .ok false
  | some .empty => .ok true
  | some _ => .error .panic

/-- The assertions of `PreferredAddress::new` (tparams.rs:101-112) for one address. -/
def addrOk (n : Nat) : Option (Bytes × Nat) → Bool
  | none => true
  | some (ip, port) => decide (ip ≠ List.replicate n 0) && decide (port ≠ 0)

/-- `get_preferred_address` (tparams.rs:684-699): the addresses, the connection id and its token. -/
def getPreferred (p : Params) : Except Err (Option (Option (Bytes × Nat) × Option (Bytes × Nat) × Bytes × Bytes)) :=
  match p .preferredAddress with
  | some (.preferred v4 v6 cid srt) =>
    if (v4.isSome || v6.isSome) && addrOk 4 v4 && addrOk 16 v6 then .ok (some (v4, v6, cid, srt)) else .error .panic
  | _ => .ok none

/-- The parameters that are not compared for 0-RTT (tparams.rs:635-645). -/
def skipped0rtt : PId → Bool
  | .originalDestinationCid | .initialSourceCid | .retrySourceCid | .statelessResetToken | .idleTimeout
  | .ackDelayExponent | .maxAckDelay | .activeConnectionIdLimit | .preferredAddress | .scone => true
  | _ => false

/-- The comparison of a value with the one that is remembered (tparams.rs:654-673). -/
def valueOk0rtt (i : PId) : Value → Value → Bool
  | .int a, .int b => if i = .minAckDelay then decide (a ≤ b) else decide (a ≥ b)
  | .empty, .empty => true
  | .versions a _, .versions b _ => decide (a = b)
  | _, _ => false

/-- `ok_for_0rtt` (tparams.rs:619-680). -/
def okFor0rtt (p remembered : Params) : Bool :=
  PId.all.all (fun i =>
    match remembered i with
    | none => true
    | some r => skipped0rtt i ||
      match p i with
      | some v => valueOk0rtt i v r
      | none => false)

end Neqo.Tp
