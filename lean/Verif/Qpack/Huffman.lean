import Verif.Qpack.Model

/-!
# Huffman coding (neqo-qpack/src/huffman.rs, huffman_table.rs, huffman_decode_helper.rs)
-/
namespace Neqo.Qp
open Neqo.Codec

/-- `Entry` (huffman_table.rs:8-11). -/
structure Entry where
  len : Nat
  val : Nat
deriving DecidableEq, Repr

/-- `HUFFMAN_TABLE` (huffman_table.rs:22-280). -/
def huffmanTable : List Entry := [
  ⟨13, 0x1ff8⟩, ⟨23, 0x007fffd8⟩, ⟨28, 0x0fffffe2⟩, ⟨28, 0x0fffffe3⟩, ⟨28, 0x0fffffe4⟩, ⟨28, 0x0fffffe5⟩,
  ⟨28, 0x0fffffe6⟩, ⟨28, 0x0fffffe7⟩, ⟨28, 0x0fffffe8⟩, ⟨24, 0x00ffffea⟩, ⟨30, 0x3ffffffc⟩, ⟨28, 0x0fffffe9⟩,
  ⟨28, 0x0fffffea⟩, ⟨30, 0x3ffffffd⟩, ⟨28, 0x0fffffeb⟩, ⟨28, 0x0fffffec⟩, ⟨28, 0x0fffffed⟩, ⟨28, 0x0fffffee⟩,
  ⟨28, 0x0fffffef⟩, ⟨28, 0x0ffffff0⟩, ⟨28, 0x0ffffff1⟩, ⟨28, 0x0ffffff2⟩, ⟨30, 0x3ffffffe⟩, ⟨28, 0x0ffffff3⟩,
  ⟨28, 0x0ffffff4⟩, ⟨28, 0x0ffffff5⟩, ⟨28, 0x0ffffff6⟩, ⟨28, 0x0ffffff7⟩, ⟨28, 0x0ffffff8⟩, ⟨28, 0x0ffffff9⟩,
  ⟨28, 0x0ffffffa⟩, ⟨28, 0x0ffffffb⟩, ⟨6, 0x14⟩, ⟨10, 0x3f8⟩, ⟨10, 0x3f9⟩, ⟨12, 0xffa⟩,
  ⟨13, 0x1ff9⟩, ⟨6, 0x15⟩, ⟨8, 0xf8⟩, ⟨11, 0x7fa⟩, ⟨10, 0x3fa⟩, ⟨10, 0x3fb⟩,
  ⟨8, 0xf9⟩, ⟨11, 0x7fb⟩, ⟨8, 0xfa⟩, ⟨6, 0x16⟩, ⟨6, 0x17⟩, ⟨6, 0x18⟩,
  ⟨5, 0x0⟩, ⟨5, 0x1⟩, ⟨5, 0x2⟩, ⟨6, 0x19⟩, ⟨6, 0x1a⟩, ⟨6, 0x1b⟩,
  ⟨6, 0x1c⟩, ⟨6, 0x1d⟩, ⟨6, 0x1e⟩, ⟨6, 0x1f⟩, ⟨7, 0x5c⟩, ⟨8, 0xfb⟩,
  ⟨15, 0x7ffc⟩, ⟨6, 0x20⟩, ⟨12, 0xffb⟩, ⟨10, 0x3fc⟩, ⟨13, 0x1ffa⟩, ⟨6, 0x21⟩,
  ⟨7, 0x5d⟩, ⟨7, 0x5e⟩, ⟨7, 0x5f⟩, ⟨7, 0x60⟩, ⟨7, 0x61⟩, ⟨7, 0x62⟩,
  ⟨7, 0x63⟩, ⟨7, 0x64⟩, ⟨7, 0x65⟩, ⟨7, 0x66⟩, ⟨7, 0x67⟩, ⟨7, 0x68⟩,
  ⟨7, 0x69⟩, ⟨7, 0x6a⟩, ⟨7, 0x6b⟩, ⟨7, 0x6c⟩, ⟨7, 0x6d⟩, ⟨7, 0x6e⟩,
  ⟨7, 0x6f⟩, ⟨7, 0x70⟩, ⟨7, 0x71⟩, ⟨7, 0x72⟩, ⟨8, 0xfc⟩, ⟨7, 0x73⟩,
  ⟨8, 0xfd⟩, ⟨13, 0x1ffb⟩, ⟨19, 0x0007fff0⟩, ⟨13, 0x1ffc⟩, ⟨14, 0x3ffc⟩, ⟨6, 0x22⟩,
  ⟨15, 0x7ffd⟩, ⟨5, 0x3⟩, ⟨6, 0x23⟩, ⟨5, 0x4⟩, ⟨6, 0x24⟩, ⟨5, 0x5⟩,
  ⟨6, 0x25⟩, ⟨6, 0x26⟩, ⟨6, 0x27⟩, ⟨5, 0x6⟩, ⟨7, 0x74⟩, ⟨7, 0x75⟩,
  ⟨6, 0x28⟩, ⟨6, 0x29⟩, ⟨6, 0x2a⟩, ⟨5, 0x7⟩, ⟨6, 0x2b⟩, ⟨7, 0x76⟩,
  ⟨6, 0x2c⟩, ⟨5, 0x8⟩, ⟨5, 0x9⟩, ⟨6, 0x2d⟩, ⟨7, 0x77⟩, ⟨7, 0x78⟩,
  ⟨7, 0x79⟩, ⟨7, 0x7a⟩, ⟨7, 0x7b⟩, ⟨15, 0x7ffe⟩, ⟨11, 0x7fc⟩, ⟨14, 0x3ffd⟩,
  ⟨13, 0x1ffd⟩, ⟨28, 0x0ffffffc⟩, ⟨20, 0x000fffe6⟩, ⟨22, 0x003fffd2⟩, ⟨20, 0x000fffe7⟩, ⟨20, 0x000fffe8⟩,
  ⟨22, 0x003fffd3⟩, ⟨22, 0x003fffd4⟩, ⟨22, 0x003fffd5⟩, ⟨23, 0x007fffd9⟩, ⟨22, 0x003fffd6⟩, ⟨23, 0x007fffda⟩,
  ⟨23, 0x007fffdb⟩, ⟨23, 0x007fffdc⟩, ⟨23, 0x007fffdd⟩, ⟨23, 0x007fffde⟩, ⟨24, 0x00ffffeb⟩, ⟨23, 0x007fffdf⟩,
  ⟨24, 0x00ffffec⟩, ⟨24, 0x00ffffed⟩, ⟨22, 0x003fffd7⟩, ⟨23, 0x007fffe0⟩, ⟨24, 0x00ffffee⟩, ⟨23, 0x007fffe1⟩,
  ⟨23, 0x007fffe2⟩, ⟨23, 0x007fffe3⟩, ⟨23, 0x007fffe4⟩, ⟨21, 0x001fffdc⟩, ⟨22, 0x003fffd8⟩, ⟨23, 0x007fffe5⟩,
  ⟨22, 0x003fffd9⟩, ⟨23, 0x007fffe6⟩, ⟨23, 0x007fffe7⟩, ⟨24, 0x00ffffef⟩, ⟨22, 0x003fffda⟩, ⟨21, 0x001fffdd⟩,
  ⟨20, 0x000fffe9⟩, ⟨22, 0x003fffdb⟩, ⟨22, 0x003fffdc⟩, ⟨23, 0x007fffe8⟩, ⟨23, 0x007fffe9⟩, ⟨21, 0x001fffde⟩,
  ⟨23, 0x007fffea⟩, ⟨22, 0x003fffdd⟩, ⟨22, 0x003fffde⟩, ⟨24, 0x00fffff0⟩, ⟨21, 0x001fffdf⟩, ⟨22, 0x003fffdf⟩,
  ⟨23, 0x007fffeb⟩, ⟨23, 0x007fffec⟩, ⟨21, 0x001fffe0⟩, ⟨21, 0x001fffe1⟩, ⟨22, 0x003fffe0⟩, ⟨21, 0x001fffe2⟩,
  ⟨23, 0x007fffed⟩, ⟨22, 0x003fffe1⟩, ⟨23, 0x007fffee⟩, ⟨23, 0x007fffef⟩, ⟨20, 0x000fffea⟩, ⟨22, 0x003fffe2⟩,
  ⟨22, 0x003fffe3⟩, ⟨22, 0x003fffe4⟩, ⟨23, 0x007ffff0⟩, ⟨22, 0x003fffe5⟩, ⟨22, 0x003fffe6⟩, ⟨23, 0x007ffff1⟩,
  ⟨26, 0x03ffffe0⟩, ⟨26, 0x03ffffe1⟩, ⟨20, 0x000fffeb⟩, ⟨19, 0x0007fff1⟩, ⟨22, 0x003fffe7⟩, ⟨23, 0x007ffff2⟩,
  ⟨22, 0x003fffe8⟩, ⟨25, 0x01ffffec⟩, ⟨26, 0x03ffffe2⟩, ⟨26, 0x03ffffe3⟩, ⟨26, 0x03ffffe4⟩, ⟨27, 0x07ffffde⟩,
  ⟨27, 0x07ffffdf⟩, ⟨26, 0x03ffffe5⟩, ⟨24, 0x00fffff1⟩, ⟨25, 0x01ffffed⟩, ⟨19, 0x0007fff2⟩, ⟨21, 0x001fffe3⟩,
  ⟨26, 0x03ffffe6⟩, ⟨27, 0x07ffffe0⟩, ⟨27, 0x07ffffe1⟩, ⟨26, 0x03ffffe7⟩, ⟨27, 0x07ffffe2⟩, ⟨24, 0x00fffff2⟩,
  ⟨21, 0x001fffe4⟩, ⟨21, 0x001fffe5⟩, ⟨26, 0x03ffffe8⟩, ⟨26, 0x03ffffe9⟩, ⟨28, 0x0ffffffd⟩, ⟨27, 0x07ffffe3⟩,
  ⟨27, 0x07ffffe4⟩, ⟨27, 0x07ffffe5⟩, ⟨20, 0x000fffec⟩, ⟨24, 0x00fffff3⟩, ⟨20, 0x000fffed⟩, ⟨21, 0x001fffe6⟩,
  ⟨22, 0x003fffe9⟩, ⟨21, 0x001fffe7⟩, ⟨21, 0x001fffe8⟩, ⟨23, 0x007ffff3⟩, ⟨22, 0x003fffea⟩, ⟨22, 0x003fffeb⟩,
  ⟨25, 0x01ffffee⟩, ⟨25, 0x01ffffef⟩, ⟨24, 0x00fffff4⟩, ⟨24, 0x00fffff5⟩, ⟨26, 0x03ffffea⟩, ⟨23, 0x007ffff4⟩,
  ⟨26, 0x03ffffeb⟩, ⟨27, 0x07ffffe6⟩, ⟨26, 0x03ffffec⟩, ⟨26, 0x03ffffed⟩, ⟨27, 0x07ffffe7⟩, ⟨27, 0x07ffffe8⟩,
  ⟨27, 0x07ffffe9⟩, ⟨27, 0x07ffffea⟩, ⟨27, 0x07ffffeb⟩, ⟨28, 0x0ffffffe⟩, ⟨27, 0x07ffffec⟩, ⟨27, 0x07ffffed⟩,
  ⟨27, 0x07ffffee⟩, ⟨27, 0x07ffffef⟩, ⟨27, 0x07fffff0⟩, ⟨26, 0x03ffffee⟩, ⟨30, 0x3fffffff⟩]

/-- `HuffmanDecoderNode` (huffman_decode_helper.rs:16-19): a leaf has a value, and no successors; every other
node has none or two successors, once the tree is complete. -/
inductive Node where
  | leaf (v : Nat)
  | stop
  | inner (l r : Node)
deriving DecidableEq, Repr

/-- The loop of `make_huffman_tree` (huffman_decode_helper.rs:27-54): whether an entry was found, and the
leaves.  The loop ends early when there are two. -/
def treeLoop (pre len : Nat) : Nat → List Entry → Bool × Option Node × Option Node → Bool × Option Node × Option Node
  | _, [], s => s
  | i, e :: es, s =>
    if e.len ≤ len then treeLoop pre len (i + 1) es s
    else if e.val >>> (e.len - len) ≠ pre then treeLoop pre len (i + 1) es s
    else if e.len = len + 1 then
      if e.val &&& 1 = 0 then
        if s.2.2.isSome then (true, some (.leaf i), s.2.2)
        else treeLoop pre len (i + 1) es (true, some (.leaf i), s.2.2)
      else
        if s.2.1.isSome then (true, s.2.1, some (.leaf i))
        else treeLoop pre len (i + 1) es (true, s.2.1, some (.leaf i))
    else treeLoop pre len (i + 1) es (true, s.2)

/-- `make_huffman_tree` (huffman_decode_helper.rs:26-61), with a bound on its depth. -/
def makeTree : Nat → Nat → Nat → Node
  | 0, _, _ => .stop
  | n + 1, pre, len =>
    match treeLoop pre len 0 huffmanTable (false, none, none) with
    | (false, _, _) => .stop
    | (true, l, r) =>
      .inner (match l with
        | some l => l
        | none => makeTree n (pre <<< 1) (len + 1))
      (match r with
        | some r => r
        | none => makeTree n ((pre <<< 1) + 1) (len + 1))

/-- `huffman_decoder_root` (huffman_decode_helper.rs:21-24). -/
def root : Node := makeTree 31 0 0

/-- `BitReader` (huffman.rs:13-17). -/
structure BitR where
  input : Bytes
  offset : Nat
  bit : Nat
deriving DecidableEq, Repr

/-- `BitReader::new` (huffman.rs:20-26). -/
def BitR.new (input : Bytes) : BitR := ⟨input, 0, 8⟩

/-- The byte at an index that was checked. -/
def byteAt (b : Bytes) (i : Nat) : Nat := (b[i]?.map UInt8.toNat).getD 0

/-- `read_bit` (huffman.rs:28-42): the reader may move even if there is no bit. -/
def BitR.read (r : BitR) : Option Bool × BitR :=
  if r.input.length = r.offset then (none, r)
  else
    let r := if r.bit = 0 then { r with offset := r.offset + 1 } else r
    if r.offset = r.input.length then (none, r)
    else
      let bit := (if r.bit = 0 then 8 else r.bit) - 1
      (some (decide ((byteAt r.input r.offset >>> bit) &&& 1 = 1)), { r with bit := bit })

/-- `verify_ending` (huffman.rs:44-61). -/
def BitR.verifyEnding (r : BitR) (i : Nat) : Except Err BitR :=
  if i + r.bit > 7 then .error .huffmanDecompression
  else if r.input = [] then .ok r
  else if r.offset ≠ r.input.length then .error .huffmanDecompression
  else if byteAt r.input (r.input.length - 1) &&& ((1 <<< (i + r.bit)) - 1) = (1 <<< (i + r.bit)) - 1 then
    .ok { r with bit := 0 }
  else .error .huffmanDecompression

/-- `has_more_data` (huffman.rs:63-65). -/
def BitR.more (r : BitR) : Bool :=
  !r.input.isEmpty && (decide (r.offset ≠ r.input.length) || decide (r.bit ≠ 0))

/-- `decode_character` (huffman.rs:90-112), from a node after `i` bits. -/
def decodeChar : Node → BitR → Nat → Except Err (Option Nat × BitR)
  | .leaf v, r, _ => .ok (some v, r)
  | .stop, r, i =>
    match r.read with
    | (none, r) => (r.verifyEnding i).map fun r => (none, r)
    | (some _, r) => (r.verifyEnding (i + 1)).map fun r => (none, r)
  | .inner a b, r, i =>
    match r.read with
    | (none, r) => (r.verifyEnding i).map fun r => (none, r)
    | (some false, r) => decodeChar a r (i + 1)
    | (some true, r) => decodeChar b r (i + 1)

/-- The loop of `decode` (huffman.rs:78-88), with a bound on the number of rounds: every round takes a bit,
or is the last. -/
def huffLoop (t : Node) : Nat → BitR → Bytes → Except Err Bytes
  | 0, _, _ => .error .panic
  | n + 1, r, out =>
    if r.more then
      match decodeChar t r 0 with
      | .error e => .error e
      | .ok (none, r) => huffLoop t n r out
      | .ok (some c, r) => if c < 256 then huffLoop t n r (out ++ [UInt8.ofNat c]) else .error .huffmanDecompression
    else .ok out

/-- `huffman::decode` (huffman.rs:78-88). -/
def huffDecode (input : Bytes) : Except Err Bytes := huffLoop root (8 * input.length + 2) (BitR.new input) []

/-- State of `encode`: bytes written, bits that are left in the byte, and that byte (huffman.rs:119-121). -/
structure HuffE where
  out : Bytes
  left : Nat
  saved : Nat
deriving DecidableEq, Repr

/-- "Write full bytes" (huffman.rs:141-145): the bytes and the length that remains. -/
def fullBytes (val : Nat) : Nat → Nat → Bytes × Nat
  | 0, len => ([], len)
  | n + 1, len =>
    if len ≥ 8 then
      let (bs, l) := fullBytes val n (len - 8)
      (UInt8.ofNat ((val >>> (len - 8)) &&& 0xff) :: bs, l)
    else ([], len)

/-- One round of the loop of `encode` (huffman.rs:122-152).  Shifts of a `u8` lose the bits above it. -/
def HuffE.push (s : HuffE) (e : Entry) : Except Err HuffE :=
  if e.len < s.left then
    .ok ⟨s.out, s.left - e.len, s.saved ||| (((e.val &&& 0xff) <<< (s.left - e.len)) % 256)⟩
  else if e.val >>> (e.len - s.left) ≥ 256 then .error .panic
  else
    let out := s.out ++ [UInt8.ofNat (s.saved ||| (e.val >>> (e.len - s.left)))]
    let (bs, len) := fullBytes e.val 4 (e.len - s.left)
    if len > 0 then
      if e.val &&& ((1 <<< len) - 1) ≥ 256 then .error .panic
      else .ok ⟨out ++ bs, 8 - len, ((e.val &&& ((1 <<< len) - 1)) <<< (8 - len)) % 256⟩
    else .ok ⟨out ++ bs, 8, 0⟩

/-- The loop of `encode` (huffman.rs:122-152). -/
def HuffE.run (s : HuffE) : Bytes → Except Err HuffE
  | [] => .ok s
  | c :: cs =>
    match huffmanTable[c.toNat]? with
    | none => .error .panic
    | some e =>
      match s.push e with
      | .error e => .error e
      | .ok s => s.run cs

/-- `huffman::encode` (huffman.rs:118-161). -/
def huffEncode (input : Bytes) : Except Err Bytes :=
  match HuffE.run ⟨[], 8, 0⟩ input with
  | .error e => .error e
  | .ok s => if s.left < 8 then .ok (s.out ++ [UInt8.ofNat (s.saved ||| ((1 <<< s.left) - 1))]) else .ok s.out

end Neqo.Qp
