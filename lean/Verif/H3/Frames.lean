import Verif.H3.ReaderSpec

/-!
# The frame decoders

`HFrame` (`neqo-http3/src/frames/hframe.rs`), `WebTransportFrame` (wtframe.rs),
`Capsule` (capsule.rs) and `HSettings` (settings.rs).

Not modelled: `Priority::from_bytes` uses the `sfv` crate, which is not part of
the project, so the parser of a priority is a parameter; `String::from_utf8` is a
parameter too (a test whether the bytes are valid).
-/
namespace Neqo.H3
open Neqo.Codec

/-! ## Settings -/

/-- `enum HSettingType` (settings.rs:38-46). -/
inductive SettingType where
  | maxHeaderListSize | maxTableCapacity | blockedStreams | enableWebTransport
  | enableH3Datagram | enableConnect
  deriving Repr, DecidableEq

/-- `struct HSetting` (settings.rs:59-63). -/
structure Setting where
  ty : SettingType
  value : Nat
  deriving Repr, DecidableEq

/-- `struct HSettings` (settings.rs:75-78). -/
abbrev Settings := List Setting

/-- `hsetting_default` (settings.rs:48-57). -/
def settingDefault : SettingType → Nat
  | .maxHeaderListSize => 2 ^ 62
  | _ => 0

/-- `HSettings::get` (settings.rs:89-94). -/
def Settings.get (s : Settings) (ty : SettingType) : Nat :=
  match s.find? (fun x => x.ty = ty) with
  | none => settingDefault ty
  | some x => x.value

/-- `H3_RESERVED_SETTINGS` (settings.rs:36). -/
def reservedSettings : List Nat := [0x2, 0x3, 0x4, 0x5]

/-- The body of the loop of `HSettings::decode_frame_contents` (settings.rs:144-214):
what one pair of type and value adds. -/
def Settings.add (s : Settings) (t v : Nat) : Except Err Settings :=
  if t = 0x6 then pure (s ++ [⟨.maxHeaderListSize, v⟩])
  else if t = 0x1 then pure (s ++ [⟨.maxTableCapacity, v⟩])
  else if t = 0x7 then pure (s ++ [⟨.blockedStreams, v⟩])
  else if t = 0x2b603742 then
    if v > 1 then .error .httpSettings else pure (s ++ [⟨.enableWebTransport, v⟩])
  else if t = 0xffd277 then
    if v > 1 then .error .httpSettings
    else if s.any (fun x => x.ty = .enableH3Datagram) then pure s
    else pure (s ++ [⟨.enableH3Datagram, v⟩])
  else if t = 0x33 then
    if v > 1 then .error .httpSettings
    else if s.any (fun x => x.ty = .enableH3Datagram) then pure s
    else pure (s ++ [⟨.enableH3Datagram, v⟩])
  else if t = 0x08 then
    if v > 1 then .error .httpSettings else pure (s ++ [⟨.enableConnect, v⟩])
  else pure s

/-- `HSettings::decode_frame_contents` (settings.rs:144-214).  `fuel` bounds the
number of passes; each reads at least one byte. -/
def Settings.decodeLoop : Nat → Settings → Bytes → Except Err Settings
  | 0, _, _ => .error .panic
  | _ + 1, s, [] => pure s
  | fuel + 1, s, b :: bs =>
    match decodeVarint (b :: bs) with
    | none => .error .notEnoughData
    | some (t, r1) =>
      if t ∈ reservedSettings then .error .httpSettings
      else match decodeVarint r1 with
        | none => .error .notEnoughData
        | some (v, r2) =>
          match s.add t v with
          | .error e => .error e
          | .ok s' => Settings.decodeLoop fuel s' r2

/-- `HSettings::decode_frame_contents` (settings.rs:144-214), from nothing. -/
def Settings.decode (bs : Bytes) : Except Err Settings :=
  Settings.decodeLoop (bs.length + 1) [] bs

/-! ## HTTP/3 frames -/

/-- `struct Priority` (priority.rs:14-18). -/
structure Priority where
  urgency : Nat
  incremental : Bool
  deriving Repr, DecidableEq

/-- `enum HFrame` (hframe.rs:55-88). -/
inductive HFrame where
  | data (len : Nat)
  | headers (block : Bytes)
  | cancelPush (id : Nat)
  | settings (s : Settings)
  | pushPromise (id : Nat) (block : Bytes)
  | goaway (id : Nat)
  | maxPushId (id : Nat)
  | grease
  | priorityUpdateRequest (id : Nat) (p : Priority)
  | priorityUpdatePush (id : Nat) (p : Priority)
  deriving Repr, DecidableEq

/-- `MAX_HEADER_BYTES` (hframe.rs:24): `LiteralReader::MAX_LEN` of the QPACK crate. -/
def maxHeaderBytes : Nat := 384 * 1024

/-- `HFrame::frame_type_allowed` and `HFrameType::RESERVED` (hframe.rs:44, 172-177). -/
def hTypeAllowed (t : Nat) : Except Err Unit :=
  if t ∈ [0x2, 0x6, 0x8, 0x9] then .error .httpFrameUnexpected else .ok ()

/-- `HFrame::max_frame_data` (hframe.rs:179-190). -/
def hMaxFrameData (t : Nat) : Nat :=
  if t = 0x1 ∨ t = 0x5 then maxHeaderBytes
  else if t = 0x3 ∨ t = 0x7 ∨ t = 0xd then 8
  else if t = 0x4 ∨ t = 0xf0700 ∨ t = 0xf0701 then 4 * 1024
  else 2 ^ 64 - 1

/-- The frames that hold one varint (hframe.rs:203-205, 224-229). -/
def hOneVarint (mk : Nat → HFrame) (payload : Bytes) : Except Err (HFrame × Bytes) :=
  match decodeVarint payload with
  | none => .error .httpFrame
  | some (v, rest) => pure (mk v, rest)

/-- The match on the type in `HFrame::decode` (hframe.rs:198-243): the frame and
what is left of the payload.  `prio` is `Priority::from_bytes`. -/
def hBody (prio : Bytes → Except Err Priority) (t : Nat) (payload : Bytes) :
    Except Err (Option (HFrame × Bytes)) :=
  if t = 0x1 then .ok (some (.headers payload, []))
  else if t = 0x3 then (hOneVarint .cancelPush payload).map some
  else if t = 0x4 then
    match Settings.decode payload with
    | .error e => .error (if e = .httpSettings then e else .httpFrame)
    | .ok s => .ok (some (.settings s, []))
  else if t = 0x5 then
    match decodeVarint payload with
    | none => .error .httpFrame
    | some (id, block) => .ok (some (.pushPromise id block, []))
  else if t = 0x7 then (hOneVarint .goaway payload).map some
  else if t = 0xd then (hOneVarint .maxPushId payload).map some
  else if t = 0xf0700 ∨ t = 0xf0701 then
    match decodeVarint payload with
    | none => .error .httpFrame
    | some (id, rest) =>
      match prio rest with
      | .error e => .error e
      | .ok p =>
        .ok (some (if t = 0xf0700 then .priorityUpdateRequest id p
          else .priorityUpdatePush id p, []))
  else .ok none

/-- The end of `HFrame::decode` (hframe.rs:244-248): nothing may be left. -/
def hFinish : Except Err (Option (HFrame × Bytes)) → Except Err (Option HFrame)
  | .error e => .error e
  | .ok none => .ok none
  | .ok (some (f, rest)) => if rest.length > 0 then .error .httpFrame else .ok (some f)

/-- `HFrame::decode` (hframe.rs:192-252). -/
def hDecode (prio : Bytes → Except Err Priority) (t len : Nat) (data : Option Bytes) :
    Except Err (Option HFrame) :=
  if t = 0x0 then .ok (some (.data len))
  else match data with
  | none => .ok none
  | some payload => hFinish (hBody prio t payload)

/-- `HFrame::is_known_type` (hframe.rs:254-267). -/
def hKnown (t : Nat) : Bool :=
  t ∈ [0x0, 0x1, 0x3, 0x4, 0x5, 0x7, 0xd, 0xf0700, 0xf0701]

/-- `impl FrameDecoder for HFrame` (hframe.rs:168-268). -/
def hDecoder (prio : Bytes → Except Err Priority) : FrameDecoder HFrame :=
  ⟨hKnown, hTypeAllowed, hMaxFrameData, hDecode prio⟩

/-- The payload that `RecvMessage` reads itself (recv_message.rs:145-168). -/
def hPayload : HFrame → Nat
  | .data len => len
  | _ => 0

/-! ## WebTransport frames and capsules -/

/-- `enum WebTransportFrame` (wtframe.rs:15-18); the message is kept as bytes. -/
structure WtFrame where
  error : Nat
  message : Bytes
  deriving Repr, DecidableEq

/-- `impl FrameDecoder for WebTransportFrame` (wtframe.rs:52-90).  `utf8` is
`String::from_utf8(..).is_ok()`. -/
def wtDecoder (utf8 : Bytes → Bool) : FrameDecoder WtFrame where
  isKnownType t := t = 0x2843
  frameTypeAllowed _ := .ok ()
  maxFrameData t := if t = 0x2843 then 1024 + 4 else 2 ^ 64 - 1
  decode t len data :=
    match data with
    | none => pure none
    | some payload =>
      if t = 0x2843 then
        if len > 1024 + 4 then .error .httpMessage
        else match decodeN 4 payload with
          | none => .error .httpMessage
          | some (e, rest) => if utf8 rest then pure (some ⟨e, rest⟩) else .error .httpMessage
      else pure none

/-- `impl FrameDecoder for Capsule` (capsule.rs:43-68): a datagram is its payload. -/
def capsuleDecoder : FrameDecoder Bytes where
  isKnownType t := t = 0
  frameTypeAllowed _ := .ok ()
  maxFrameData t := if t = 0 then 65535 else 2 ^ 64 - 1
  decode t _ data :=
    if t = 0 then
      match data with
      | some payload => pure (some payload)
      | none => pure none
    else pure none

end Neqo.H3

namespace Neqo.H3.Spec
open Neqo.Codec (Bytes decodeVarint decodeN)
open Neqo.H3

/-! ## The frame types of the protocols -/

/-- A payload that is one varint, and nothing else. -/
def oneVarint (mk : Nat → HFrame) (payload : Bytes) : Except Err HFrame :=
  match decodeVarint payload with
  | some (v, []) => .ok (mk v)
  | _ => .error .httpFrame

/-- A payload that is a varint followed by something. -/
def varintAnd (mk : Nat → Bytes → Except Err HFrame) (payload : Bytes) : Except Err HFrame :=
  match decodeVarint payload with
  | some (v, rest) => mk v rest
  | none => .error .httpFrame

/-- The frames of HTTP/3 (RFC 9114 §7.2 and §11.2.1, RFC 9218 §7). -/
def http3 (prio : Bytes → Except Err Priority) (t : Nat) : Kind HFrame :=
  match t with
  | 0x0 => .inline .data
  | 0x1 => .whole (384 * 1024) (fun b => .ok (.headers b))
  | 0x3 => .whole 8 (oneVarint .cancelPush)
  | 0x4 => .whole 4096 (fun b => match Settings.decode b with
      | .ok s => .ok (.settings s)
      | .error .httpSettings => .error .httpSettings
      | .error _ => .error .httpFrame)
  | 0x5 => .whole (384 * 1024) (varintAnd fun id block => .ok (.pushPromise id block))
  | 0x7 => .whole 8 (oneVarint .goaway)
  | 0xd => .whole 8 (oneVarint .maxPushId)
  | 0xf0700 => .whole 4096 (varintAnd fun id b => (prio b).map (.priorityUpdateRequest id))
  | 0xf0701 => .whole 4096 (varintAnd fun id b => (prio b).map (.priorityUpdatePush id))
  | 0x2 | 0x6 | 0x8 | 0x9 => .reserved
  | _ => .unknown

/-- The one WebTransport frame (draft-ietf-webtrans-http3 §5). -/
def webTransport (utf8 : Bytes → Bool) (t : Nat) : Kind WtFrame :=
  if t = 0x2843 then .whole 1028 (fun b =>
    match decodeN 4 b with
    | some (e, rest) => if utf8 rest then .ok ⟨e, rest⟩ else .error .httpMessage
    | none => .error .httpMessage)
  else .unknown

/-- The datagram capsule (RFC 9297 §3.5). -/
def capsule (t : Nat) : Kind Bytes := if t = 0 then .whole 65535 .ok else .unknown

end Neqo.H3.Spec
