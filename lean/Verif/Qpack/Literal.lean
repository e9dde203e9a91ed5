import Verif.Qpack.Huffman

/-! # String literals (neqo-qpack/src/reader.rs, qpack_send_buf.rs) -/
namespace Neqo.Qp
open Neqo.Codec

/-- `encode_literal` (qpack_send_buf.rs:61-79). -/
def encodeLiteral (huff : Bool) (p : Prefix) (v : Bytes) : Except Err Bytes :=
  match Prefix.new (if huff then p.pre ||| (0x80 >>> p.len) else p.pre) (p.len + 1) with
  | .error e => .error e
  | .ok rp =>
    match (if huff then huffEncode v else .ok v) with
    | .error e => .error e
    | .ok e => .ok (encodeInt rp e.length ++ e)

/-- `LiteralReader::MAX_LEN` (reader.rs:271). -/
def maxLiteral : Nat := 384 * 1024

/-- `LiteralReaderState` (reader.rs:231-241).  The buffer of the literal (reader.rs:252) is the bytes that it
already has, and its length. -/
inductive LitSt where
  | readHuffman
  | readLength (r : IntR)
  | readLiteral (len : Nat) (got : Bytes)
  | done
deriving DecidableEq, Repr

/-- `LiteralReader` (reader.rs:251-255). -/
structure LitR where
  st : LitSt
  huff : Bool
deriving DecidableEq, Repr

/-- `LiteralReader::default` (reader.rs:248). -/
def LitR.fresh : LitR := ⟨.readHuffman, false⟩

/-- `new_with_first_byte` (reader.rs:281-290). -/
def LitR.new (b : UInt8) (len : Nat) : LitR :=
  ⟨.readLength (IntR.new b (len + 1)), decide (b.toNat &&& (0x80 >>> len) ≠ 0)⟩

/-- The literal itself (reader.rs:330-341). -/
def LitR.readLit (huff : Bool) (len : Nat) (got bs : Bytes) : R LitR Bytes :=
  let all := got ++ bs.take (len - got.length)
  if all.length = len then
    if huff then
      match huffDecode all with
      | .ok v => .done v ⟨.done, huff⟩ (bs.drop (len - got.length))
      | .error e => .fail e
    else .done all ⟨.done, huff⟩ (bs.drop (len - got.length))
  else .more ⟨.readLiteral len all, huff⟩

/-- The length, then the literal (reader.rs:322-341). -/
def LitR.readLen (huff : Bool) (r : IntR) (bs : Bytes) : R LitR Bytes :=
  match r.read bs with
  | .done v _ rest => if v ≤ maxLiteral then LitR.readLit huff v [] rest else .fail .decoding
  | .more r => .more ⟨.readLength r, huff⟩
  | .fail e => .fail e

/-- `LiteralReader::read` (reader.rs:307-344). -/
def LitR.read (r : LitR) (bs : Bytes) : R LitR Bytes :=
  match r.st, bs with
  | .readHuffman, [] => .more r
  | .readHuffman, b :: bs => LitR.readLen (decide (b.toNat &&& 0x80 ≠ 0)) (IntR.new b 1) bs
  | .readLength i, bs => LitR.readLen r.huff i bs
  | .readLiteral len got, bs => LitR.readLit r.huff len got bs
  | .done, _ => .fail .panic

/-- `read_prefixed_int` of a complete buffer (reader.rs:103-109, 66-76). -/
def bufInt (len : Nat) : Bytes → Except Err (Nat × Bytes)
  | [] => .error .decompression
  | b :: bs =>
    match (IntR.new b len).read bs with
    | .done v _ rest => .ok (v, rest)
    | .more _ => .error .decompression
    | .fail e => .error e

/-- `slice` (reader.rs:141-150). -/
def bufSlice (n : Nat) (bs : Bytes) : Except Err (Bytes × Bytes) :=
  if n > bs.length then .error .decompression else .ok (bs.take n, bs.drop n)

/-- `read_literal_from_buffer` (reader.rs:122-139). -/
def bufLiteral (len : Nat) : Bytes → Except Err (Bytes × Bytes)
  | [] => .error .decompression
  | b :: bs =>
    match bufInt (len + 1) (b :: bs) with
    | .error e => .error e
    | .ok (n, rest) =>
      if n > maxLiteral then .error .decompression
      else
        match bufSlice n rest with
        | .error e => .error e
        | .ok (s, rest) =>
          if b.toNat &&& (0x80 >>> len) ≠ 0 then (huffDecode s).map fun v => (v, rest) else .ok (s, rest)

end Neqo.Qp
