import Verif.H3.Settings
import Verif.H3.ReaderProps

/-!
# Writing frames: `neqo-http3/src/frames/hframe.rs`, `wtframe.rs`, `capsule.rs`
-/
namespace Neqo.H3
open Neqo.Codec

/-- What is written to an HTTP/3 stream: a frame; for a DATA frame also its
payload, which `SendMessage` writes after the header; for a frame of a random
type the two random numbers (hframe.rs:99-103, 149-153). -/
inductive Sent where
  | frame (f : HFrame)
  | data (payload : Bytes)
  | grease (r : Nat) (bytes : Bytes)
  deriving Repr, DecidableEq

/-- `HFrame::get_type` (hframe.rs:90-107) for all but Grease. -/
def hType : HFrame → Nat
  | .data _ => 0x0
  | .headers _ => 0x1
  | .cancelPush _ => 0x3
  | .settings _ => 0x4
  | .pushPromise _ _ => 0x5
  | .goaway _ => 0x7
  | .maxPushId _ => 0xd
  | .priorityUpdateRequest _ _ => 0xf0700
  | .priorityUpdatePush _ _ => 0xf0701
  | .grease => 0x21

/-- The type of a Grease frame (hframe.rs:99-103). -/
def greaseType (r : Nat) : Nat := (r >>> 7) * 0x1f + 0x21

/-- `HFrame::encode` (hframe.rs:109-165) after the type: the length and the
payload.  `disp` is `Priority`'s `Display`.  `encode_vvec_with` writes what
`encode_vvec` does (C03), and so does `encode_len` followed by the parts. -/
def hEncodeBody (disp : Priority → Bytes) : HFrame → Option Bytes
  | .data len => encodeVarint len
  | .headers block => encodeVvec block
  | .cancelPush id => (encodeVarint id).bind encodeVvec
  | .settings s => s.encode.bind encodeVvec
  | .pushPromise id block => (encodeVarint id).bind fun i => encodeVvec (i ++ block)
  | .goaway id => (encodeVarint id).bind encodeVvec
  | .maxPushId id => (encodeVarint id).bind encodeVvec
  | .grease => encodeVvec []
  | .priorityUpdateRequest id p => (encodeVarint id).bind fun i => encodeVvec (i ++ disp p)
  | .priorityUpdatePush id p => (encodeVarint id).bind fun i => encodeVvec (i ++ disp p)

/-- The bytes of one thing written (hframe.rs:107-165, and the payload of DATA,
send_message.rs:160-210). -/
def Sent.encode (disp : Priority → Bytes) : Sent → Option Bytes
  | .frame f => do
    let t ← encodeVarint (hType f)
    let b ← hEncodeBody disp f
    pure (t ++ b)
  | .data payload => do
    let t ← encodeVarint 0x0
    let b ← encodeVarint payload.length
    pure (t ++ b ++ payload)
  | .grease r bytes => do
    let t ← encodeVarint (greaseType r)
    let b ← encodeVvec bytes
    pure (t ++ b)

/-- One after the other. -/
def encodeAll (disp : Priority → Bytes) : List Sent → Option Bytes
  | [] => some []
  | s :: ss => do
    let a ← s.encode disp
    let r ← encodeAll disp ss
    pure (a ++ r)

/-- `WebTransportFrame::encode` (wtframe.rs:37-49). -/
def WtFrame.encode (f : WtFrame) : Option Bytes := do
  let t ← encodeVarint 0x2843
  let b ← encodeVvec (beBytes 4 f.error ++ f.message)
  pure (t ++ b)

/-- `Capsule::encode` (capsule.rs:32-39). -/
def capsuleEncode (payload : Bytes) : Option Bytes := do
  let t ← encodeVarint 0
  let b ← encodeVvec payload
  pure (t ++ b)

end Neqo.H3

namespace Neqo.H3.Spec
open Neqo.Codec (Bytes)
open Neqo.H3

/-- What the peer is to get for something written. -/
def Arrives : Sent → List (Item HFrame) → Prop
  | .frame (.settings s), items => ∃ s', items = [.frame (.settings s')] ∧
      ∀ ty, Settings.get s' ty = Settings.get s ty
  | .frame f, items => items = [.frame f]
  | .data payload, items => items = .frame (.data payload.length) :: payload.map .byte
  | .grease _ _, items => items = []

/-- One group of items for each thing written, in order. -/
inductive AllArrive : List Sent → List (List (Item HFrame)) → Prop where
  | nil : AllArrive [] []
  | cons {s ss g gs} : Arrives s g → AllArrive ss gs → AllArrive (s :: ss) (g :: gs)

/-- What may be written: numbers below 2^62, settings as this implementation
builds them, a priority that exists, and header blocks up to the limit of the
peer. -/
def Sendable : Sent → Prop
  | .frame (.data _) => False
  | .frame .grease => False
  | .frame (.headers b) => b.length ≤ 384 * 1024
  | .frame (.cancelPush id) => id < 2 ^ 62
  | .frame (.settings s) => (s.map Setting.ty).Nodup ∧
      ∀ x ∈ s, x.value < 2 ^ 62 ∧ (isSwitch x.ty → x.value ≤ 1)
  | .frame (.pushPromise id b) => id < 2 ^ 62 ∧ b.length ≤ 384 * 1024 - 8
  | .frame (.goaway id) => id < 2 ^ 62
  | .frame (.maxPushId id) => id < 2 ^ 62
  | .frame (.priorityUpdateRequest id p) => id < 2 ^ 62 ∧ p.urgency < 8
  | .frame (.priorityUpdatePush id p) => id < 2 ^ 62 ∧ p.urgency < 8
  | .data payload => payload.length < 2 ^ 62
  | .grease r bytes => r < 2 ^ 64 ∧ bytes.length ≤ 7

end Neqo.H3.Spec
