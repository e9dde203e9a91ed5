import Verif.Codec.Model

/-!
# QPACK integers and literals (neqo-qpack/src/prefix.rs, reader.rs, qpack_send_buf.rs)

Bytes that arrive on a stream are given to the readers in pieces.  A reader that needs more takes all that
there is and keeps its state.  The end of a QPACK stream, which is always an error
(`Error::ClosedCriticalStream`, reader.rs:37-58), is not modelled.
-/
namespace Neqo.Qp
open Neqo.Codec

/-- The errors of QPACK that matter here (lib.rs:120-160); `panic` stands for a panic, including those of
debug assertions and of arithmetic that overflows. -/
inductive Err where
  | decompression
  | encoderStream
  | decoderStream
  | internal
  | headerLookup
  | huffmanDecompression
  | badUtf8
  | changeCapacity
  | dynamicTableFull
  | incrementAck
  | integerOverflow
  | decoding
  | encoderStreamBlocked
  | panic
deriving DecidableEq, Repr

/-- `Prefix` (prefix.rs:8-13). -/
structure Prefix where
  pre : Nat
  len : Nat
  mask : Nat
deriving DecidableEq, Repr

/-- `create_prefix!` (prefix.rs:47-74) without a mask. -/
def mkPrefix (pre len : Nat) : Prefix := ⟨pre, len, ((1 <<< len) - 1) <<< (8 - len)⟩

/-- `NO_PREFIX` (prefix.rs:76). -/
def noPrefix : Prefix := ⟨0, 0, 0xff⟩
/-- prefix.rs:82 -/
def decoderHeaderAck : Prefix := mkPrefix 0x80 1
/-- prefix.rs:85 -/
def decoderStreamCancellation : Prefix := mkPrefix 0x40 2
/-- prefix.rs:88 -/
def decoderInsertCountIncrement : Prefix := mkPrefix 0x00 2
/-- prefix.rs:95 -/
def encoderCapacity : Prefix := mkPrefix 0x20 3
/-- prefix.rs:100 -/
def encoderInsertWithNameRefStatic : Prefix := mkPrefix 0xc0 2
/-- prefix.rs:101 -/
def encoderInsertWithNameRefDynamic : Prefix := mkPrefix 0x80 2
/-- prefix.rs:105 -/
def encoderInsertWithNameLiteral : Prefix := mkPrefix 0x40 2
/-- prefix.rs:108 -/
def encoderDuplicate : Prefix := mkPrefix 0x00 3
/-- prefix.rs:114 -/
def basePrefixPositive : Prefix := mkPrefix 0x00 1
/-- prefix.rs:115 -/
def basePrefixNegative : Prefix := mkPrefix 0x80 1
/-- prefix.rs:120 -/
def headerFieldIndexStatic : Prefix := mkPrefix 0xc0 2
/-- prefix.rs:121 -/
def headerFieldIndexDynamic : Prefix := mkPrefix 0x80 2
/-- prefix.rs:124 -/
def headerFieldIndexDynamicPost : Prefix := mkPrefix 0x10 4
/-- prefix.rs:130 -/
def headerFieldLiteralNameRefStatic : Prefix := ⟨0x50, 4, 0xd0⟩
/-- prefix.rs:131 -/
def headerFieldLiteralNameRefDynamic : Prefix := ⟨0x40, 4, 0xd0⟩
/-- prefix.rs:135 -/
def headerFieldLiteralNameRefDynamicPost : Prefix := ⟨0x00, 5, 0xf0⟩
/-- prefix.rs:140 -/
def headerFieldLiteralNameLiteral : Prefix := ⟨0x20, 4, 0xe0⟩

/-- `Prefix::new` (prefix.rs:16-33). -/
def Prefix.new (pre len : Nat) : Except Err Prefix :=
  if len ≤ 7 ∧ (len = 0 ∨ pre &&& ((1 <<< (8 - len)) - 1) = 0) then
    .ok ⟨pre, len, if len = 0 then 0xff else ((1 <<< len) - 1) <<< (8 - len)⟩
  else .error .panic

/-- `cmp_prefix` (prefix.rs:43-45). -/
def Prefix.cmp (p : Prefix) (b : UInt8) : Bool := b.toNat &&& p.mask = p.pre

/-- The bits of the first byte that belong to the number (qpack_send_buf.rs:29-33, reader.rs:170-174). -/
def firstMax (len : Nat) : Nat := if len = 0 then 0xff else (1 <<< (8 - len)) - 1

/-- The loop of `encode_prefixed_encoded_int` (qpack_send_buf.rs:45-58); ten rounds are enough for a
`u64`. -/
def contBytes : Nat → Nat → Bytes
  | 0, _ => []
  | n + 1, v =>
    if v >>> 7 > 0 then UInt8.ofNat ((v &&& 0x7f) ||| 0x80) :: contBytes n (v >>> 7)
    else [UInt8.ofNat (v &&& 0x7f)]

/-- `encode_prefixed_encoded_int` (qpack_send_buf.rs:28-59): the bytes that are written, of which the code
returns the number.  `val` is a `u64`. -/
def encodeInt (p : Prefix) (val : Nat) : Bytes :=
  if val < firstMax p.len then [UInt8.ofNat ((p.pre &&& (0xff - firstMax p.len)) ||| val)]
  else UInt8.ofNat (p.pre ||| firstMax p.len) :: contBytes 10 (val - firstMax p.len)

/-- What a reader says when it was given bytes: it is done, with a value and the bytes that it did not
take; it needs more; or it fails. -/
inductive R (σ α : Type) where
  | done (v : α) (s : σ) (rest : Bytes)
  | more (s : σ)
  | fail (e : Err)
deriving DecidableEq, Repr

/-- A reader goes on with bytes that came later. -/
def R.resume {σ α : Type} (f : σ → Bytes → R σ α) (b : Bytes) : R σ α → R σ α
  | .done v s r => .done v s (r ++ b)
  | .more s => f s b
  | .fail e => .fail e

/-- A reader is given bytes in pieces, as they arrive. -/
def feed {σ α : Type} (f : σ → Bytes → R σ α) (s : σ) : List Bytes → R σ α
  | [] => f s []
  | c :: cs =>
    match f s c with
    | .done v s r => .done v s (r ++ cs.flatten)
    | .more s => feed f s cs
    | .fail e => .fail e

/-- `IntReader` (reader.rs:156-160). -/
structure IntR where
  value : Nat
  cnt : Nat
  fin : Bool
deriving DecidableEq, Repr

/-- `IntReader::new` (reader.rs:170-184); the debug assertion on the length of the prefix is that of the
callers, who use constants. -/
def IntR.new (b : UInt8) (len : Nat) : IntR :=
  ⟨b.toNat &&& firstMax len, 0, decide (b.toNat &&& firstMax len < firstMax len)⟩

/-- `IntReader::read` (reader.rs:208-227). -/
def IntR.read : IntR → Bytes → R IntR Nat
  | r, [] => if r.fin then .done r.value r [] else .more r
  | r, b :: bs =>
    if r.fin then .done r.value r (b :: bs)
    else if r.cnt = 63 ∧ (b.toNat > 1 ∨ (b.toNat = 1 ∧ r.value >>> 63 = 1)) then .fail .integerOverflow
    else if r.cnt ≥ 64 then .fail .panic
    else
      let v := r.value + ((b.toNat &&& 0x7f) <<< r.cnt) % 2 ^ 64
      if v ≥ 2 ^ 64 then .fail .panic
      else IntR.read ⟨v, r.cnt + 7, decide (b.toNat &&& 0x80 = 0) || decide (r.cnt + 7 ≥ 64)⟩ bs

end Neqo.Qp
