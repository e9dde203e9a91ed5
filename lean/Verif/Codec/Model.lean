/-!
# Model of `neqo-common/src/codec.rs` (encoder / decoder)

A `Decoder` over a slice is modelled by the bytes that remain to be read
(`codec.rs:17-30`); each decoding function returns the decoded value and the
remaining bytes, or `none`.  Simplification: on failure the Rust decoder may
have advanced; every caller abandons the decoder then, so the position after a
failure is not modelled.

An `Encoder<Vec<u8>>` is modelled by `buf` (all bytes of the underlying buffer)
and `start` (`codec.rs:213-219`).  Panics are `none`.
-/
namespace Neqo.Codec

abbrev Bytes := List UInt8

/-- The `n` low-order bytes of `v`, most significant first:
`v.to_be_bytes()[8 - n..]` (codec.rs:294-295), and `(v as u16).to_be_bytes()`
etc. (codec.rs:310-312). -/
def beBytes : Nat → Nat → Bytes
  | 0, _ => []
  | n + 1, v => UInt8.ofNat (v / 256 ^ n) :: beBytes n v

/-- `u64::from_be_bytes` of a zero-extended slice (codec.rs:116-119). -/
def beVal : Bytes → Nat
  | [] => 0
  | b :: bs => b.toNat * 256 ^ bs.length + beVal bs

/-- `MAX_VARINT` (codec.rs:14). -/
def maxVarint : Nat := 2 ^ 62 - 1

/-! ## Decoder -/

/-- `Decoder::decode` (codec.rs:97-104). -/
def decode (n : Nat) (d : Bytes) : Option (Bytes × Bytes) :=
  if d.length < n then none else some (d.take n, d.drop n)

/-- `Decoder::decode_n` (codec.rs:106-121).  The `debug_assert!(n > 0 && n <= 8)`
is the explicit guard. -/
def decodeN (n : Nat) (d : Bytes) : Option (Nat × Bytes) :=
  if n = 0 ∨ 8 < n then none
  else if d.length < n then none
  else some (beVal (d.take n), d.drop n)

/-- `Decoder::decode_varint` (codec.rs:135-144). -/
def decodeVarint (d : Bytes) : Option (Nat × Bytes) :=
  match decodeN 1 d with
  | none => none
  | some (b1, d1) =>
    match b1 >>> 6 with
    | 0 => some (b1, d1)
    | 1 => (decodeN 1 d1).map fun (x, r) => (((b1 &&& 0x3f) <<< 8) ||| x, r)
    | 2 => (decodeN 3 d1).map fun (x, r) => (((b1 &&& 0x3f) <<< 24) ||| x, r)
    | 3 => (decodeN 7 d1).map fun (x, r) => (((b1 &&& 0x3f) <<< 56) ||| x, r)
    | _ => none -- `unreachable!()`: a byte shifted by 6 is at most 3

/-- `Decoder::decode_vec` (codec.rs:165-168) with `decode_checked`
(codec.rs:153-162) for a 64-bit `usize`. -/
def decodeVec (n : Nat) (d : Bytes) : Option (Bytes × Bytes) :=
  match decodeN n d with
  | none => none
  | some (l, r) => decode l r

/-- `Decoder::decode_vvec` (codec.rs:171-174). -/
def decodeVvec (d : Bytes) : Option (Bytes × Bytes) :=
  match decodeVarint d with
  | none => none
  | some (l, r) => decode l r

/-! ## Encoder -/

/-- `Encoder::encode_uint` (codec.rs:289-296): bytes appended, `none` is the
`assert!` failing. -/
def encodeUint (n v : Nat) : Option Bytes :=
  if 0 < n ∧ n ≤ 8 then some (beBytes n v) else none

/-- `Encoder::encode_varint` (codec.rs:303-315): bytes appended, `none` is the
panic. -/
def encodeVarint (v : Nat) : Option Bytes :=
  if v < 1 <<< 6 then some (beBytes 1 v)
  else if v < 1 <<< 14 then some (beBytes 2 (v ||| 1 <<< 14))
  else if v < 1 <<< 30 then some (beBytes 4 (v ||| 2 <<< 30))
  else if v < 1 <<< 62 then some (beBytes 8 (v ||| 3 <<< 62))
  else none

/-- `Encoder::varint_len` (codec.rs:438-446). -/
def varintLen (v : Nat) : Option Nat :=
  if v < 1 <<< 6 then some 1
  else if v < 1 <<< 14 then some 2
  else if v < 1 <<< 30 then some 4
  else if v < 1 <<< 62 then some 8
  else none

/-- `Encoder::encode_vec` (codec.rs:327-329): bytes appended.  Note that
`encode_uint` silently truncates a length that does not fit. -/
def encodeVec (n : Nat) (v : Bytes) : Option Bytes :=
  (encodeUint n v.length).map (· ++ v)

/-- `Encoder::encode_vvec` (codec.rs:358-360): bytes appended. -/
def encodeVvec (v : Bytes) : Option Bytes :=
  (encodeVarint v.length).map (· ++ v)

/-- `Encoder<Vec<u8>>` (codec.rs:213-219). -/
structure Encoder where
  buf : Bytes
  start : Nat
  deriving Repr, DecidableEq

/-- `Encoder::as_ref`: the bytes written by this encoder. -/
def Encoder.bytes (e : Encoder) : Bytes := e.buf.drop e.start

/-- `Encoder::encode` (codec.rs:265-270) on a growable buffer. -/
def Encoder.encode (e : Encoder) (d : Bytes) : Encoder := { e with buf := e.buf ++ d }

/-- `Encoder::pad_to` (codec.rs:412-417) with `Vec::pad_to` = `resize`
(codec.rs:619-621). -/
def Encoder.padTo (e : Encoder) (len : Nat) (v : UInt8) : Encoder :=
  if e.buf.length < e.start + len then
    { e with buf := e.buf ++ List.replicate (e.start + len - e.buf.length) v }
  else e

/-- The loop writing the length over reserved space in `encode_vec_with`
(codec.rs:340-351): byte `i` of `n` goes to position `pos + i`. -/
def writeLen (n len pos : Nat) : Nat → Bytes → Bytes
  | 0, b => b
  | k + 1, b => (writeLen n len pos k b).set (pos + k)
      (UInt8.ofNat ((len >>> (8 * (n - k - 1))) &&& 0xff))

/-- `Encoder::encode_vec_with` (codec.rs:340-351).  The closure is modelled by
the bytes `body` it appends.  `none` is a panic (subtraction overflow, or the
`assert!`). -/
def Encoder.encodeVecWith (e : Encoder) (n : Nat) (body : Bytes) : Option Encoder :=
  let start := e.buf.length
  let e1 := e.padTo n 0
  let e2 := e1.encode body
  if e2.buf.length < start + n then none
  else
    let len := e2.buf.length - start - n
    if len < 1 <<< (n * 8) then
      some { e2 with buf := writeLen n len start n e2.buf }
    else none

/-- `[T]::rotate_right(k)` on a list with at least `k` elements
(codec.rs:627-629). -/
def rotateRight (l : Bytes) (k : Nat) : Bytes :=
  l.drop (l.length - k) ++ l.take (l.length - k)

/-- `Encoder::encode_vvec_with` (codec.rs:367-404).  The closure is modelled by
the bytes `body` it appends. -/
def Encoder.encodeVvecWith (e : Encoder) (body : Bytes) : Option Encoder :=
  let start := e.buf.length
  let b1 := e.buf ++ [0] ++ body
  let v := b1.length - start - 1
  let b2 := b1.set start (UInt8.ofNat (v &&& 0xff))
  if v < 1 <<< 6 then some { e with buf := b2 }
  else
    let cb : Option (Nat × Nat) :=
      if v < 1 <<< 14 then some (1, 1 <<< 6)
      else if v < 1 <<< 30 then some (3, 2 <<< 22)
      else if v < 1 <<< 62 then some (7, 3 <<< 54)
      else none
    match cb with
    | none => none
    | some (count, bits) =>
      match encodeUint count ((v >>> 8) ||| bits) with
      | none => none
      | some hi =>
        let b3 := b2 ++ hi
        some { e with buf := b3.take start ++ rotateRight (b3.drop start) count }

/-! ## Incremental decoders, `neqo-common/src/incrdecoder.rs` -/

/-- `IncrementalDecoderUint` (incrdecoder.rs:12-15). -/
structure IncUint where
  v : Nat := 0
  remaining : Option Nat := none
  deriving Repr, DecidableEq

/-- `IncrementalDecoderUint::consume` (incrdecoder.rs:28-57).  The outer
`Option` is `none` on a panic (`unreachable!()` on an empty first chunk, or the
`debug_assert!` in `decode_n` on an empty later chunk or when called again
after completion).  The `u64` shift truncates (`<<=` drops high bits). -/
def IncUint.consume (s : IncUint) (dv : Bytes) : Option (IncUint × Option Nat × Bytes) :=
  match s.remaining with
  | some r =>
    let amount := min r dv.length
    let v1 := if amount < 8 then (s.v <<< (amount * 8)) % 2 ^ 64 else s.v
    match decodeN amount dv with
    | none => none
    | some (x, rest) =>
      let v2 := v1 ||| x
      some (⟨v2, some (r - amount)⟩, if r - amount = 0 then some v2 else none, rest)
  | none =>
    match decodeN 1 dv with
    | none => none
    | some (b, rest) =>
      let v := b &&& 0x3f
      let rem : Option Nat := match b >>> 6 with
        | 0 => some 0 | 1 => some 1 | 2 => some 3 | 3 => some 7 | _ => none
      match rem with
      | none => none
      | some rm => some (⟨v, some rm⟩, if rm = 0 then some v else none, rest)

/-- `IncrementalDecoderUint::min_remaining` (incrdecoder.rs:19-21). -/
def IncUint.minRemaining (s : IncUint) : Nat := s.remaining.getD 1

/-- `IncrementalDecoderBuffer` (incrdecoder.rs:66-69). -/
structure IncBuffer where
  v : Bytes
  remaining : Nat
  deriving Repr, DecidableEq

def IncBuffer.new (n : Nat) : IncBuffer := ⟨[], n⟩

/-- `IncrementalDecoderBuffer::consume` (incrdecoder.rs:90-96).  `mem::take`
leaves an empty buffer behind on completion.  (`decode` cannot fail because
`amount` is at most what remains.) -/
def IncBuffer.consume (s : IncBuffer) (dv : Bytes) : IncBuffer × Option Bytes × Bytes :=
  let amount := min s.remaining dv.length
  let v := s.v ++ dv.take amount
  let rem := s.remaining - amount
  if rem = 0 then (⟨[], 0⟩, some v, dv.drop amount)
  else (⟨v, rem⟩, none, dv.drop amount)

/-- `IncrementalDecoderIgnore` (incrdecoder.rs:100-102): only the count. -/
def incIgnoreConsume (remaining : Nat) (dv : Bytes) : Nat × Bool × Bytes :=
  let amount := min remaining dv.length
  (remaining - amount, remaining - amount = 0, dv.drop amount)

end Neqo.Codec
