import Verif.H3.Frames

/-!
# HTTP/3 settings, `neqo-http3/src/settings.rs`, and their use with 0-RTT

`Settings`, `Settings.get` and `Settings.decode` are in `Verif.H3.Frames`.
-/
namespace Neqo.H3
open Neqo.Codec

/-! ## Writing -/

/-- What `HSettings::encode_frame_contents` writes for one setting
(settings.rs:96-139): pairs of identifier and value. -/
def Setting.wire (s : Setting) : List (Nat × Nat) :=
  match s.ty with
  | .maxHeaderListSize => [(0x6, s.value)]
  | .maxTableCapacity => [(0x1, s.value)]
  | .blockedStreams => [(0x7, s.value)]
  | .enableWebTransport => [(0x2b603742, s.value)]
  | .enableH3Datagram => if s.value = 1 then [(0xffd277, s.value), (0x33, s.value)] else []
  | .enableConnect => if s.value = 1 then [(0x08, s.value)] else []

/-- Varints one after another; `none` is the panic of `encode_varint` on a value
of 2^62 or more. -/
def encodePairs : List (Nat × Nat) → Option Bytes
  | [] => some []
  | (t, v) :: ps => do
    let a ← encodeVarint t
    let b ← encodeVarint v
    let r ← encodePairs ps
    pure (a ++ b ++ r)

/-- `HSettings::encode_frame_contents` (settings.rs:96-139) without the length in
front (`encode_vvec_with`, see C03). -/
def Settings.encode (s : Settings) : Option Bytes := encodePairs (s.flatMap Setting.wire)

/-- What of `Http3Parameters` (conn_params.rs) ends up in the settings. -/
structure Params where
  maxTable : Nat
  maxBlocked : Nat
  webTransport : Bool
  datagram : Bool
  connect : Bool
  deriving Repr, DecidableEq

/-- `HSettings::from` (settings.rs:225-250). -/
def Settings.ofParams (p : Params) : Settings :=
  [⟨.maxTableCapacity, p.maxTable⟩, ⟨.blockedStreams, p.maxBlocked⟩,
   ⟨.enableWebTransport, p.webTransport.toNat⟩, ⟨.enableH3Datagram, p.datagram.toNat⟩,
   ⟨.enableConnect, p.connect.toNat⟩]

/-- The parameters that can be set: the table size is limited by an assertion in
neqo-qpack (`Settings::max_table_size_decoder`), the number of blocked streams
is a `u16`. -/
def Params.Ok (p : Params) : Prop := p.maxTable < 2 ^ 30 ∧ p.maxBlocked < 2 ^ 16

instance (p : Params) : Decidable p.Ok := by unfold Params.Ok; infer_instance

/-! ## A server and 0-RTT -/

/-- `HttpZeroRttChecker::save` (settings.rs:267-282): what a server puts into a
session ticket. -/
def zeroRttSave (p : Params) : Option Bytes := do
  let v ← encodeVarint 1
  let r ← encodePairs ([(0x1, p.maxTable), (0x7, p.maxBlocked)]
    ++ (if p.webTransport then [(0x2b603742, 1)] else [])
    ++ (if p.datagram then [(0x33, 1)] else []))
  pure (v ++ r)

/-- `ZeroRttCheckResult` (nss). -/
inductive ZeroRttCheck where
  | accept | reject | fail
  deriving Repr, DecidableEq

/-- One of the settings in `HttpZeroRttChecker::check` (settings.rs:306-332). -/
def zeroRttOk (p : Params) (s : Setting) : Bool :=
  match s.ty with
  | .blockedStreams => p.maxBlocked ≥ s.value
  | .maxTableCapacity => p.maxTable ≥ s.value
  | .enableWebTransport => s.value ≤ 1 && (p.webTransport || !(s.value == 1))
  | .enableH3Datagram => s.value ≤ 1 && (p.datagram || !(s.value == 1))
  | .enableConnect => s.value ≤ 1 && (p.connect || !(s.value == 1))
  | .maxHeaderListSize => true

/-- `HttpZeroRttChecker::check` (settings.rs:286-337). -/
def zeroRttCheck (p : Params) (token : Bytes) : ZeroRttCheck :=
  match decodeVarint token with
  | none => .fail
  | some (version, rest) =>
    if version ≠ 1 then .reject
    else match Settings.decode rest with
      | .error _ => .fail
      | .ok s => if s.all (zeroRttOk p) then .accept else .reject

/-! ## A client and 0-RTT -/

/-- `enum Http3RemoteSettingsState` (connection.rs). -/
inductive RemoteSettings where
  | notReceived
  | zeroRtt (s : Settings)
  | received (s : Settings)
  deriving Repr, DecidableEq

/-- Errors of `handle_settings`. -/
inductive SettingsErr where
  | httpSettings
  | qpackDecoderStream
  | qpackEncoderStream
  | frameUnexpected
  deriving Repr, DecidableEq

/-- `Http3Connection::set_qpack_settings` (connection.rs:1694-1699) with
`Encoder::set_max_capacity` and `set_max_blocked_streams`
(neqo-qpack/src/encoder.rs:95-126): whether the values are refused, and otherwise the
capacity and the number of blocked streams that the encoder is allowed. -/
def setQpackSettings (s : Settings) : Except SettingsErr (Nat × Nat) :=
  if s.get .maxTableCapacity > 2 ^ 30 - 1 then .error .qpackEncoderStream
  else if s.get .blockedStreams > 2 ^ 16 - 1 then .error .qpackEncoderStream
  else .ok (s.get .maxTableCapacity, s.get .blockedStreams)

/-- The settings that a client compares with the remembered ones
(connection.rs:1722-1735). -/
def comparedSettings : List SettingType :=
  [.maxHeaderListSize, .maxTableCapacity, .blockedStreams, .enableWebTransport, .enableH3Datagram]

/-- The loop over the settings (connection.rs:1722-1760): whether the settings for
QPACK changed. -/
def compareSettings (old new : Settings) : List SettingType → Bool → Except SettingsErr Bool
  | [], changed => .ok changed
  | st :: rest, changed =>
    let o := old.get st
    let n := new.get st
    if o = n then compareSettings old new rest changed
    else if o > n then .error .httpSettings
    else match st with
      | .maxTableCapacity =>
        if o ≠ 0 then .error .qpackDecoderStream else compareSettings old new rest true
      | .blockedStreams => compareSettings old new rest true
      | _ => compareSettings old new rest changed

/-- `Http3Connection::handle_settings` (connection.rs:1701-1767), without the
notification of the WebTransport and CONNECT-UDP features.  `q` are the limits of the
QPACK encoder. -/
def handleSettings (st : RemoteSettings) (q : Nat × Nat) (new : Settings) :
    Except SettingsErr (RemoteSettings × Nat × Nat) :=
  match st with
  | .notReceived => do
    let q' ← setQpackSettings new
    pure (.received new, q')
  | .zeroRtt old => do
    let changed ← compareSettings old new comparedSettings false
    let q' ← if changed then setQpackSettings new else pure q
    pure (.received new, q')
  | .received _ => .error .frameUnexpected

/-- `Http3Connection::set_0rtt_settings` (connection.rs:450-460). -/
def set0rttSettings (old : Settings) : Except SettingsErr (RemoteSettings × Nat × Nat) := do
  let q ← setQpackSettings old
  pure (.zeroRtt old, q)

end Neqo.H3

namespace Neqo.H3.Spec
open Neqo.Codec (Bytes decodeVarint)
open Neqo.H3

/-- The pairs of varints that make up a byte string (RFC 9114 §7.2.4); `none` if
it ends within a pair.  `fuel` bounds the number of pairs. -/
def pairsLoop : Nat → Bytes → Option (List (Nat × Nat))
  | 0, _ => none
  | _ + 1, [] => some []
  | fuel + 1, b :: bs =>
    match decodeVarint (b :: bs) with
    | none => none
    | some (t, r1) =>
      match decodeVarint r1 with
      | none => none
      | some (v, r2) => (pairsLoop fuel r2).map ((t, v) :: ·)

def pairs (bs : Bytes) : Option (List (Nat × Nat)) := pairsLoop (bs.length + 1) bs

/-- The meaning of the identifiers (RFC 9114 §7.2.4.1, RFC 9204 §5, RFC 9297 §5.1,
RFC 9220, and the drafts for WebTransport and datagrams). -/
def settingOf (id : Nat) : Option SettingType :=
  match id with
  | 0x1 => some .maxTableCapacity
  | 0x6 => some .maxHeaderListSize
  | 0x7 => some .blockedStreams
  | 0x8 => some .enableConnect
  | 0x33 => some .enableH3Datagram
  | 0xffd277 => some .enableH3Datagram
  | 0x2b603742 => some .enableWebTransport
  | _ => none

/-- The settings that are either 0 or 1. -/
def isSwitch : SettingType → Bool
  | .enableConnect | .enableH3Datagram | .enableWebTransport => true
  | _ => false

/-- A pair that may not be sent: a reserved identifier (RFC 9114 §7.2.4.1), or a
switch that is neither on nor off. -/
def badPair (p : Nat × Nat) : Bool :=
  p.1 ∈ [0x2, 0x3, 0x4, 0x5] || (match settingOf p.1 with
    | some ty => isSwitch ty && p.2 > 1
    | none => false)

/-- The value of a setting: what the first pair for it says, or its default. -/
def valueIn (ps : List (Nat × Nat)) (ty : SettingType) : Nat :=
  match ps.find? (fun p => settingOf p.1 = some ty) with
  | some p => p.2
  | none => if ty = .maxHeaderListSize then 2 ^ 62 else 0

end Neqo.H3.Spec
