import Verif.Qpack.Literal
import Verif.Qpack.Table

/-!
# Header blocks (neqo-qpack/src/header_block.rs)

Errors are not told apart when a header block is decoded: all become `Error::Decompression` (decoder.rs:231).
-/
namespace Neqo.Qp
open Neqo.Codec

/-- A header field: its name and its value (`neqo_common::Header`). -/
abbrev Field := Bytes × Bytes

/-- `parse_utf8` (reader.rs:353-355): what Rust's `str::from_utf8` accepts. -/
def utf8 (b : Bytes) : Bool := (ByteArray.mk b.toArray).validateUTF8

/-- `HeaderEncoder` (header_block.rs:30-36). -/
structure HEnc where
  buf : Bytes
  base : Nat
  huff : Bool
  maxEntries : Nat
  maxRef : Option Nat
deriving DecidableEq, Repr

/-- `HeaderEncoder::new` (header_block.rs:45-53). -/
def HEnc.new (base : Nat) (huff : Bool) (maxEntries : Nat) : HEnc := ⟨[], base, huff, maxEntries, none⟩

/-- `encode_indexed_static` (header_block.rs:55-59). -/
def HEnc.indexedStatic (h : HEnc) (i : Nat) : HEnc := { h with buf := h.buf ++ encodeInt headerFieldIndexStatic i }

/-- `new_ref` (header_block.rs:61-69). -/
def HEnc.newRef (h : HEnc) (i : Nat) : HEnc :=
  match h.maxRef with
  | some r => if r < i then { h with maxRef := some i } else h
  | none => { h with maxRef := some i }

/-- `encode_indexed_dynamic` (header_block.rs:71-81). -/
def HEnc.indexedDynamic (h : HEnc) (i : Nat) : HEnc :=
  HEnc.newRef { h with
    buf := h.buf ++
      (if i < h.base then encodeInt headerFieldIndexDynamic (h.base - i - 1)
       else encodeInt headerFieldIndexDynamicPost (i - h.base)) } i

/-- `encode_literal_with_name_ref` (header_block.rs:83-105). -/
def HEnc.literalNameRef (h : HEnc) (isStatic : Bool) (i : Nat) (value : Bytes) : Except Err HEnc :=
  let h' :=
    if isStatic then { h with buf := h.buf ++ encodeInt headerFieldLiteralNameRefStatic i }
    else if i < h.base then
      HEnc.newRef { h with buf := h.buf ++ encodeInt headerFieldLiteralNameRefDynamic (h.base - i - 1) } i
    else HEnc.newRef { h with buf := h.buf ++ encodeInt headerFieldLiteralNameRefDynamicPost (i - h.base) } i
  match encodeLiteral h.huff noPrefix value with
  | .error e => .error e
  | .ok b => .ok { h' with buf := h'.buf ++ b }

/-- `encode_literal_with_name_literal` (header_block.rs:107-112). -/
def HEnc.literalNameLiteral (h : HEnc) (name value : Bytes) : Except Err HEnc :=
  match encodeLiteral h.huff headerFieldLiteralNameLiteral name with
  | .error e => .error e
  | .ok a =>
    match encodeLiteral h.huff noPrefix value with
    | .error e => .error e
    | .ok b => .ok { h with buf := h.buf ++ a ++ b }

/-- `encode_header_block_prefix` (header_block.rs:114-145): the whole block.  A remainder by zero is a panic. -/
def HEnc.finish (h : HEnc) : Except Err Bytes :=
  match h.maxRef with
  | none => .ok (encodeInt noPrefix 0 ++ encodeInt basePrefixPositive h.base ++ h.buf)
  | some r =>
    if h.maxEntries = 0 then .error .panic
    else
      let req := r + 1
      let cnt := req % (2 * h.maxEntries) + 1
      .ok (encodeInt noPrefix cnt ++
        (if req ≤ h.base then encodeInt basePrefixPositive (h.base - req)
         else encodeInt basePrefixNegative (req - h.base - 1)) ++ h.buf)

/-- `calc_req_insert_cnt` (header_block.rs:284-308).  The number of inserts and of entries are far from what a `u64`
can hold. -/
def calcReq (encoded maxEntries inserts : Nat) : Except Err Nat :=
  if encoded = 0 then .ok 0
  else if maxEntries = 0 then .error .decompression
  else
    let full := 2 * maxEntries
    if encoded > full then .error .decompression
    else
      let maxValue := inserts + maxEntries
      let req := maxValue / full * full + encoded - 1
      if req > maxValue then
        if req < full then .error .decompression
        else if req - full = 0 then .error .decompression
        else .ok (req - full)
      else if req = 0 then .error .decompression
      else .ok req

/-- `read_base` (header_block.rs:259-282): the number of inserts that are required, the base, and the rest. -/
def readBase (maxEntries inserts : Nat) (buf : Bytes) : Except Err (Nat × Nat × Bytes) := do
  let (cnt, buf) ← bufInt 0 buf
  let req ← calcReq cnt maxEntries inserts
  match buf with
  | [] => .error .decompression
  | b :: _ =>
    let (delta, rest) ← bufInt 1 buf
    if b.toNat &&& 0x80 ≠ 0 then
      if req ≤ delta then .error .decompression
      else pure (req, req - delta - 1, rest)
    else if req + delta ≥ 2 ^ 64 then .error .decompression
    else pure (req, req + delta, rest)

/-- `HeaderDecoder` (header_block.rs:155-159) without its buffer. -/
structure HDec where
  table : Table
  req : Nat
  base : Nat

/-- `dynamic_entry` (header_block.rs:324-335). -/
def HDec.entry (d : HDec) (i : Nat) (post : Bool) : Except Err DEntry := do
  let e ← d.table.getDynamic i d.base post
  if e.base ≥ d.req then .error .decompression else pure e

/-- A name is parsed (header_block.rs:307, 333, 342, 353, 367, 380, 395). -/
def fieldOf (name value : Bytes) : Except Err Field := if utf8 name then .ok (name, value) else .error .badUtf8

/-- `read_indexed_static` (header_block.rs:310-317). -/
def readIndexedStatic (buf : Bytes) : Except Err (Field × Bytes) := do
  let (i, buf) ← bufInt headerFieldIndexStatic.len buf
  let e ← getStatic i
  let f ← fieldOf e.name e.value
  pure (f, buf)

/-- `read_indexed_dynamic` and `read_indexed_dynamic_post` (header_block.rs:337-353). -/
def HDec.readIndexed (d : HDec) (post : Bool) (buf : Bytes) : Except Err (Field × Bytes) := do
  let (i, buf) ← bufInt (if post then headerFieldIndexDynamicPost.len else headerFieldIndexDynamic.len) buf
  let e ← d.entry i post
  let f ← fieldOf e.name e.value
  pure (f, buf)

/-- `read_literal_with_name_ref_static` (header_block.rs:355-366). -/
def readRefStatic (buf : Bytes) : Except Err (Field × Bytes) := do
  let (i, buf) ← bufInt headerFieldLiteralNameRefStatic.len buf
  let e ← getStatic i
  let (v, buf) ← bufLiteral 0 buf
  let f ← fieldOf e.name v
  pure (f, buf)

/-- `read_literal_with_name_ref_dynamic` and `_post` (header_block.rs:368-392). -/
def HDec.readRef (d : HDec) (post : Bool) (buf : Bytes) : Except Err (Field × Bytes) := do
  let (i, buf) ← bufInt (if post then headerFieldLiteralNameRefDynamicPost.len else headerFieldLiteralNameRefDynamic.len) buf
  let e ← d.entry i post
  let (v, buf) ← bufLiteral 0 buf
  let f ← fieldOf e.name v
  pure (f, buf)

/-- `read_literal_with_name_literal` (header_block.rs:394-405). -/
def readLitLit (buf : Bytes) : Except Err (Field × Bytes) := do
  let (n, buf) ← bufLiteral headerFieldLiteralNameLiteral.len buf
  let (v, buf) ← bufLiteral 0 buf
  let f ← fieldOf n v
  pure (f, buf)

/-- One field, by its first byte (header_block.rs:203-231). -/
def HDec.readField (d : HDec) : Bytes → Except Err (Field × Bytes)
  | [] => .error .decompression
  | b :: bs =>
    if headerFieldIndexStatic.cmp b then readIndexedStatic (b :: bs)
    else if headerFieldIndexDynamic.cmp b then d.readIndexed false (b :: bs)
    else if headerFieldIndexDynamicPost.cmp b then d.readIndexed true (b :: bs)
    else if headerFieldLiteralNameRefStatic.cmp b then readRefStatic (b :: bs)
    else if headerFieldLiteralNameRefDynamic.cmp b then d.readRef false (b :: bs)
    else if headerFieldLiteralNameLiteral.cmp b then readLitLit (b :: bs)
    else if headerFieldLiteralNameRefDynamicPost.cmp b then d.readRef true (b :: bs)
    else .error .panic

/-- The loop of `decode_header_block` (header_block.rs:201-239); a field takes at least one byte, and the number
bounds the rounds. -/
def HDec.readFields (d : HDec) : Nat → Nat → Bytes → Except Err (List Field)
  | _, _, [] => .ok []
  | 0, _, _ :: _ => .error .panic
  | n + 1, remaining, b :: bs =>
    match d.readField (b :: bs) with
    | .error e => .error e
    | .ok (f, rest) =>
      if remaining < f.1.length + f.2.length + entryOverhead then .error .decompression
      else
        match d.readFields n (remaining - (f.1.length + f.2.length + entryOverhead)) rest with
        | .error e => .error e
        | .ok fs => .ok (f :: fs)

/-- `HeaderDecoderResult` (header_block.rs:168-171); with the headers, the number of inserts that was required. -/
inductive HRes where
  | blocked (req : Nat)
  | headers (req : Nat) (fs : List Field)
deriving DecidableEq, Repr

/-- `decode_header_block` (header_block.rs:194-253). -/
def decodeBlock (t : Table) (maxEntries : Nat) (buf : Bytes) : Except Err HRes :=
  match readBase maxEntries t.base buf with
  | .error _ => .error .decompression
  | .ok (req, base, rest) =>
    if t.base < req then .ok (.blocked req)
    else
      match HDec.readFields ⟨t, req, base⟩ rest.length maxLiteral rest with
      | .error .panic => .error .panic
      | .error _ => .error .decompression
      | .ok fs => .ok (.headers req fs)

end Neqo.Qp
