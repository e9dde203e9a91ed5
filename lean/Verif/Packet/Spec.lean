import Verif.Packet.Model

/-!
# What a packet looks like (RFC 9000 §17, RFC 9001 §5.4, RFC 9369 §3.2)
-/
namespace Neqo.Pkt.Spec
open Neqo.Codec (Bytes beBytes)
open Neqo.Pkt

/-- Types of packets with a long header that carry frames. -/
inductive LTy where
  | initial | zeroRtt | handshake
  deriving Repr, DecidableEq

def LTy.ty : LTy → Ty
  | .initial => .initial
  | .zeroRtt => .zeroRtt
  | .handshake => .handshake

/-- The two bits for a type, which version 2 changed. -/
def LTy.code : LTy → Version → Nat
  | .initial, .v2 => 1
  | .zeroRtt, .v2 => 2
  | .handshake, .v2 => 3
  | .initial, _ => 0
  | .zeroRtt, _ => 1
  | .handshake, _ => 2

/-- What is in a header apart from the packet number. -/
inductive Head where
  | short (dcid : Bytes) (spin keyPhase : Bool)
  | long (ty : LTy) (v : Version) (dcid scid token : Bytes)
  deriving Repr, DecidableEq

def Head.isLong : Head → Bool
  | .short .. => false
  | .long .. => true

/-- A packet in the clear.  `fixed` is the fixed bit, `w` the number of bytes of the packet
number that are written. -/
structure Clear where
  head : Head
  fixed : Bool
  pn : Nat
  w : Nat
  payload : Bytes
  deriving Repr, DecidableEq

/-- The first byte: `1FTT00NN` or `0FS00KNN`. -/
def Clear.first (p : Clear) : UInt8 :=
  let f := if p.fixed then 64 else 0
  match p.head with
  | .short _ spin kp => UInt8.ofNat (f + (if spin then 32 else 0) + (if kp then 4 else 0) + (p.w - 1))
  | .long ty v .. => UInt8.ofNat (128 + f + 16 * ty.code v + (p.w - 1))

/-- A string with its length in one byte. -/
def string1 (bs : Bytes) : Bytes := UInt8.ofNat bs.length :: bs

/-- `bs` is one of the encodings of `n` as a variable-length integer. -/
def IsVarint (bs : Bytes) (n : Nat) : Prop := ∀ r, Codec.decodeVarint (bs ++ r) = some (n, r)

/-- The header between the first byte and the packet number.  `tl` and `ll` are the
length of the token and of the packet, as variable-length integers. -/
def Head.middle (h : Head) (tl ll : Bytes) : Bytes :=
  match h with
  | .short dcid _ _ => dcid
  | .long ty v dcid scid token =>
    beBytes 4 v.wire ++ string1 dcid ++ string1 scid ++ (if ty = .initial then tl ++ token else []) ++ ll

/-- Protection of a packet: the payload is encrypted, with the header as associated data,
and then the first byte and the packet number are masked. -/
def protect (c : Seal) (first : UInt8) (mid : Bytes) (pn w : Nat) (long : Bool) (payload : Bytes) : Bytes :=
  let num := beBytes w pn
  let ct := c.enc pn (first :: mid ++ num) payload
  let m := c.mask ((ct.drop (4 - w)).take 16)
  (first ^^^ (m.getD 0 0 &&& (if long then 0x0f else 0x1f))) :: mid ++
    List.zipWith (· ^^^ ·) num (m.drop 1) ++ ct

/-- The packet on the wire. -/
def Clear.wire (c : Seal) (p : Clear) (tl ll : Bytes) : Bytes :=
  protect c p.first (p.head.middle tl ll) p.pn p.w p.head.isLong p.payload

/-- What the encryption has to be like: the text grows by a fixed number of bytes, and
masks are as long as samples. -/
structure SealOk (c : Seal) : Prop where
  size : ∀ pn aad pt, (c.enc pn aad pt).length = pt.length + c.expansion
  mask : ∀ s, (c.mask s).length = 16

/-- A packet that can be written: the length of its packet number is 1 to 4, connection
IDs have at most 20 bytes, and there is enough of it to take the sample from. -/
structure Clear.Ok (c : Seal) (p : Clear) : Prop where
  w1 : 1 ≤ p.w
  w4 : p.w ≤ 4
  enough : 20 ≤ p.w + p.payload.length + c.expansion
  ids : match p.head with
    | .short .. => True
    | .long _ _ dcid scid _ => dcid.length ≤ 20 ∧ scid.length ≤ 20

/-- The lengths in a header are right. -/
def Clear.Lengths (c : Seal) (p : Clear) (tl ll : Bytes) : Prop :=
  match p.head with
  | .short .. => True
  | .long ty _ _ _ token =>
    (ty = .initial → IsVarint tl token.length) ∧ IsVarint ll (p.w + p.payload.length + c.expansion)

end Neqo.Pkt.Spec
