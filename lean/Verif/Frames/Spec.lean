import Verif.Frames.Model

/-!
# What frames look like (RFC 9000, section 19, and its extensions)

This file describes the bytes of frames without reference to the decoder: a frame is its type, followed
by fields.  Integers may use any of the four lengths, except for the type.
-/
namespace Neqo.Frm
open Neqo.Codec

/-- `e` is an integer of variable length with value `v` (RFC 9000, section 16): one, two, four or eight
bytes, whose two highest bits tell which. -/
def IsVar (v : Nat) (e : Bytes) : Prop :=
  ∃ k, k < 4 ∧ e.length = 2 ^ k ∧ v < 2 ^ (8 * 2 ^ k - 2) ∧ beVal e = k * 2 ^ (8 * 2 ^ k - 2) + v

/-- The fields that frames consist of. -/
inductive Field where
  /-- An integer of variable length. -/
  | var (v : Nat)
  /-- Bytes whose number is known. -/
  | raw (b : Bytes)
  /-- Bytes after their number, an integer of variable length. -/
  | counted (b : Bytes)
  /-- Bytes after their number, one byte. -/
  | short (b : Bytes)

/-- The bytes of a field. -/
def Field.Is : Field → Bytes → Prop
  | .var v, e => IsVar v e
  | .raw b, e => e = b
  | .counted b, e => ∃ l, IsVar b.length l ∧ e = l ++ b
  | .short b, e => ∃ l : UInt8, l.toNat = b.length ∧ e = l :: b

/-- The bytes of several fields. -/
def Fields : List Field → Bytes → Prop
  | [], e => e = []
  | f :: fs, e => ∃ x y, f.Is x ∧ Fields fs y ∧ e = x ++ y

/-- The type and the fields of a frame (RFC 9000, section 19; RFC 9221 for DATAGRAM; the drafts on
acknowledgment frequency and reliable stream resets).  A frame of `n` bytes of padding is a run of `n`
PADDING frames. -/
def Frame.layout : Frame → Nat × List Field
  | .padding n => (0x00, [.raw (List.replicate (n - 1) 0)])
  | .ping => (0x01, [])
  | .ack largest delay first ranges ecn =>
    (if ecn.isSome then 0x03 else 0x02,
      [.var largest, .var delay, .var ranges.length, .var first] ++
      ranges.flatMap (fun p => [.var p.1, .var p.2]) ++
      (match ecn with
       | some (ect0, ect1, ce) => [.var ect0, .var ect1, .var ce]
       | none => []))
  | .resetStream id err final => (0x04, [.var id, .var err, .var final])
  | .stopSending id err => (0x05, [.var id, .var err])
  | .crypto off data => (0x06, [.var off, .counted data])
  | .newToken token => (0x07, [.counted token])
  -- The three lowest bits: an offset is present, a length is present, this is the end.  The offset is
  -- zero if it is absent; here a frame with the offset zero may have or not have the field (`Wire`).
  | .stream id off data fin fill =>
    (0x08 + 4 + (if fill then 0 else 2) + (if fin then 1 else 0),
      [.var id, .var off, if fill then .raw data else .counted data])
  | .maxData m => (0x10, [.var m])
  | .maxStreamData id m => (0x11, [.var id, .var m])
  | .maxStreams uni m => (if uni then 0x13 else 0x12, [.var m])
  | .dataBlocked l => (0x14, [.var l])
  | .streamDataBlocked id l => (0x15, [.var id, .var l])
  | .streamsBlocked uni l => (if uni then 0x17 else 0x16, [.var l])
  | .newConnectionId seq retire cid token => (0x18, [.var seq, .var retire, .short cid, .raw token])
  | .retireConnectionId seq => (0x19, [.var seq])
  | .pathChallenge data => (0x1a, [.raw data])
  | .pathResponse data => (0x1b, [.raw data])
  | .connectionClose app code ftype reason =>
    if app then (0x1d, [.var code, .counted reason]) else (0x1c, [.var code, .var ftype, .counted reason])
  | .handshakeDone => (0x1e, [])
  | .resetStreamAt id err final reliable => (0x24, [.var id, .var err, .var final, .var reliable])
  | .ackFrequency seq tolerance delay ignore =>
    (0xaf, [.var seq, .var tolerance, .var delay, .raw [if ignore then 1 else 0]])
  | .datagram data fill => (if fill then 0x30 else 0x31, [if fill then .raw data else .counted data])

/-- The STREAM frame without the field for the offset, which is then zero. -/
def Frame.layoutNoOffset : Frame → Option (Nat × List Field)
  | .stream id 0 data fin fill =>
    some (0x08 + (if fill then 0 else 2) + (if fin then 1 else 0),
      [.var id, if fill then .raw data else .counted data])
  | _ => none

/-- The type in the shortest form: one byte, or two for the only type above 63. -/
def ShortVar (v : Nat) (e : Bytes) : Prop := IsVar v e ∧ (v < 64 → e.length = 1) ∧ e.length ≤ 2

/-- `w` is a form of the frame `f`. -/
def Wire (f : Frame) (w : Bytes) : Prop :=
  ∃ l, (l = f.layout ∨ some l = f.layoutNoOffset) ∧ ∃ t b, ShortVar l.1 t ∧ Fields l.2 b ∧ w = t ++ b

/-- What the RFCs require of the values in a frame, and the two limits that the decoder adds: at most
65535 bytes of padding and fewer than 32768 ranges. -/
def Frame.Valid : Frame → Prop
  | .padding n => 1 ≤ n ∧ n < 65536
  | .ack _ _ _ ranges _ => ranges.length < 32768
  | .resetStreamAt _ _ final reliable => reliable ≤ final
  | .crypto off data => off + data.length < 2 ^ 62
  | .newToken token => token ≠ []
  | .stream _ off data _ _ => off + data.length < 2 ^ 62
  | .maxStreams _ m => m ≤ 2 ^ 60
  | .streamsBlocked _ l => l ≤ 2 ^ 60
  | .newConnectionId seq retire cid token =>
    retire ≤ seq ∧ 1 ≤ cid.length ∧ cid.length ≤ 20 ∧ token.length = 16
  | .pathChallenge data => data.length = 8
  | .pathResponse data => data.length = 8
  | .connectionClose app _ ftype _ => app = true → ftype = 0
  | .ackFrequency _ tolerance _ _ => tolerance ≠ 0
  | _ => True

/-- What may follow a frame: nothing, if it extends to the end of the packet, and no more padding after
padding. -/
def Frame.Before : Frame → Bytes → Prop
  | .stream _ _ _ _ true, r => r = []
  | .datagram _ true, r => r = []
  | .padding _, r => ∀ x xs, r = x :: xs → x ≠ 0
  | _, _ => True

/-- The frames of a packet, one after the other. -/
inductive Frames : List Frame → Bytes → Prop where
  | nil : Frames [] []
  | cons {f : Frame} {w r : Bytes} {fs : List Frame} :
    Wire f w → f.Valid → f.Before r → Frames fs r → Frames (f :: fs) (w ++ r)

/-- Where RFC 9000, table 3, allows a frame; the extensions allow theirs in 0-RTT and 1-RTT packets. -/
def Frame.AllowedIn : Frame → PType → Prop
  | .padding _, _ => True
  | .ping, _ => True
  | .ack .., p => p = .initial ∨ p = .handshake ∨ p = .short
  | .crypto .., p => p = .initial ∨ p = .handshake ∨ p = .short
  | .newToken _, p => p = .short
  | .pathResponse _, p => p = .short
  | .handshakeDone, p => p = .short
  -- Errors of the application are not sent in Initial or Handshake packets.
  | .connectionClose app .., p => app = true → p = .zeroRtt ∨ p = .short
  | _, p => p = .zeroRtt ∨ p = .short

/-- A frame that asks for an acknowledgment (RFC 9000, section 2): any but ACK, PADDING and
CONNECTION_CLOSE. -/
def Frame.Eliciting (f : Frame) : Prop :=
  f.layout.1 ∉ [0x00, 0x02, 0x03, 0x1c, 0x1d]

/-- A frame that may be used to probe a path (RFC 9000, section 9.1): PATH_CHALLENGE, PATH_RESPONSE,
NEW_CONNECTION_ID and PADDING. -/
def Frame.Probing (f : Frame) : Prop := f.layout.1 ∈ [0x00, 0x18, 0x1a, 0x1b]

/-- The result of writing the frame `f` into a packet with `rem` bytes left: it does not panic, and
adds the frame if any form of it fits.  What is added is the frame, and fits. -/
def Writes (rem : Nat) (res : Except Err (Option Bytes)) (f : Frame) : Prop :=
  ∃ o, res = .ok o ∧ (∀ w, o = some w → f.Valid ∧ Wire f w ∧ w.length ≤ rem) ∧
    (o = none → ∀ w, Wire f w → rem < w.length)

end Neqo.Frm
