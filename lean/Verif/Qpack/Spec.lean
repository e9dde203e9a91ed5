import Verif.Codec.Model
import Verif.Qpack.Huffman
import Verif.Qpack.Instr

/-!
# What QPACK integers and literals are (RFC 7541, sections 5.1 and 5.2; RFC 9204, section 4.1)
-/
namespace Neqo.Qp.Spec
open Neqo.Codec

/-- The bytes that follow a full prefix: seven bits each, least significant first; all but the last have
their top bit set. -/
def ContIs (n : Nat) : Bytes → Prop
  | [] => False
  | b :: bs =>
    (b.toNat < 128 ∧ bs = [] ∧ n = b.toNat) ∨
    (128 ≤ b.toNat ∧ ∃ m, ContIs m bs ∧ n = (b.toNat - 128) + 128 * m)

/-- The bytes are an integer that does not use the first `len` bits of the first byte. -/
def IntIs (len n : Nat) : Bytes → Prop
  | [] => False
  | b :: bs =>
    (b.toNat % 2 ^ (8 - len) = n ∧ n < 2 ^ (8 - len) - 1 ∧ bs = []) ∨
    (b.toNat % 2 ^ (8 - len) = 2 ^ (8 - len) - 1 ∧ ∃ m, ContIs m bs ∧ n = 2 ^ (8 - len) - 1 + m)

/-- The first `len` bits of a byte. -/
def topBits (len : Nat) (b : Nat) : Nat := b / 2 ^ (8 - len)

/-- The `n` low bits of a number, the most significant first. -/
def natBits : Nat → Nat → List Bool
  | 0, _ => []
  | n + 1, v => v.testBit n :: natBits n v

/-- The bits of bytes. -/
def bits (b : Bytes) : List Bool := b.flatMap (fun x => natBits 8 x.toNat)

/-- The code of a symbol (RFC 7541, appendix B); 256 is EOS. -/
def code (c : Nat) : List Bool :=
  match huffmanTable[c]? with
  | some e => natBits e.len e.val
  | none => []

/-- The codes of the bytes of a string, one after the other. -/
def codes (s : Bytes) : List Bool := s.flatMap (fun c => code c.toNat)

/-- Bytes that stand for a string: the bits of its codes, and fewer than eight ones. -/
def HuffIs (s b : Bytes) : Prop := ∃ k, k < 8 ∧ bits b = codes s ++ List.replicate k true

/-- The bytes are a string literal that does not use the first `len` bits of the first byte: a bit that tells
whether the string is coded, the number of its bytes, and these bytes. -/
def LitIs (len : Nat) (s : Bytes) : Bytes → Prop
  | [] => False
  | b :: bs => ∃ i e, bs = i ++ e ∧ IntIs (len + 1) e.length (b :: i) ∧
    if b.toNat.testBit (7 - len) then HuffIs s e else s = e

/-- The first bits of bytes. -/
def Starts (len v : Nat) : Bytes → Prop
  | [] => False
  | b :: _ => topBits len b.toNat = v

/-- What an instruction of an encoder looks like (RFC 9204, section 4.3). -/
def EncIs : EncInstr → Bytes → Prop
  | .capacity v, b => Starts 3 0b001 b ∧ IntIs 3 v b
  | .insertStatic i v, b => ∃ x y, b = x ++ y ∧ Starts 2 0b11 x ∧ IntIs 2 i x ∧ LitIs 0 v y
  | .insertDynamic i v, b => ∃ x y, b = x ++ y ∧ Starts 2 0b10 x ∧ IntIs 2 i x ∧ LitIs 0 v y
  | .insertLiteral n v, b => ∃ x y, b = x ++ y ∧ Starts 2 0b01 x ∧ LitIs 2 n x ∧ LitIs 0 v y
  | .duplicate i, b => Starts 3 0b000 b ∧ IntIs 3 i b

/-- What an instruction of a decoder looks like (RFC 9204, section 4.4). -/
def DecIs : DecInstr → Bytes → Prop
  | .headerAck s, b => Starts 1 0b1 b ∧ IntIs 1 s b
  | .cancel s, b => Starts 2 0b01 b ∧ IntIs 2 s b
  | .increment n, b => Starts 2 0b00 b ∧ IntIs 2 n b

end Neqo.Qp.Spec
