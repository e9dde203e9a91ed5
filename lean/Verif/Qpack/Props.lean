import Verif.Qpack.Unique

/-!
# QPACK integers, Huffman coding, string literals: C38, C39, C62
-/
namespace Neqo.Qp
open Neqo.Codec Spec

/-! ## C38: integers -/

/-- Reading takes exactly the bytes of an integer below 2^64 that is written with at most ten bytes after the
first. -/
theorem C38_read {b : UInt8} {bs rest : Bytes} {len n : Nat} (hl : len < 8) :
    (∃ r, (IntR.new b len).read bs = .done n r rest) ↔
      ∃ i, b :: bs = b :: i ++ rest ∧ IntIs len n (b :: i) ∧ n < 2 ^ 64 ∧ i.length ≤ 10 := by
  rw [int_iff hl]
  constructor
  · rintro ⟨i, rfl, h⟩; exact ⟨i, rfl, h⟩
  · rintro ⟨i, h, h1⟩; exact ⟨i, (List.cons.inj h).2, h1⟩

/-- 1337 with a prefix of five bits (RFC 7541, C.1.2), and what comes after it. -/
example : (IntR.new 0xff 3).read [0x9a, 0x0a, 0x77] = .done 1337 ⟨1337, 14, true⟩ [0x77] ∧
    IntIs 3 1337 [0xff, 0x9a, 0x0a] := by
  refine ⟨by decide +kernel, Or.inr ⟨by decide, 1306, Or.inr ⟨by decide, 10, Or.inl ⟨by decide, rfl, by decide⟩, by decide⟩, by decide⟩⟩

/-- What a reader says does not depend on how the bytes were cut in pieces. -/
theorem C38_chunks (r : IntR) (cs : List Bytes) : feed IntR.read r cs = r.read cs.flatten := feed_eq int_resumable r cs

example : feed IntR.read (IntR.new 0xff 3) [[], [0x9a], [], [0x0a, 0x77]] = (IntR.new 0xff 3).read [0x9a, 0x0a, 0x77] := by
  decide +kernel

/-- An integer of 64 bits or more is rejected, whatever follows, and so is one with too many bytes; any other is
read. -/
theorem C38_bound {b : UInt8} {i rest : Bytes} {len n : Nat} (hl : len < 8) (h : IntIs len n (b :: i)) :
    if n < 2 ^ 64 ∧ i.length ≤ 10 then ∃ r, (IntR.new b len).read (i ++ rest) = .done n r rest
    else (IntR.new b len).read (i ++ rest) = .fail .integerOverflow := by
  split
  · rename_i hc
    exact (int_iff hl).mpr ⟨i, rfl, h, hc⟩
  · rename_i hc
    cases hr : (IntR.new b len).read (i ++ rest) with
    | more r => exact absurd hr (int_complete hl h)
    | fail e => rw [int_fail hl hr]
    | done v r q =>
      exfalso
      obtain ⟨j, h1, h2, h3, h4⟩ := (int_iff hl).mp ⟨r, hr⟩
      have hu := int_unique (r := rest) (q := q) h h2
        (by rw [List.cons_append, List.cons_append, h1])
      obtain ⟨rfl, h5⟩ := hu
      rw [(List.cons.inj h5).2] at hc
      exact hc ⟨h3, h4⟩

/-- The largest integer, and one more. -/
example : (IntR.new 0xff 0).read (List.replicate 9 0x80 ++ [0x01]) =
    .done (2 ^ 63 + 255) ⟨2 ^ 63 + 255, 70, true⟩ [] ∧
    (IntR.new 0xff 0).read ([0x80, 0xfe] ++ List.replicate 7 0xff ++ [0x01]) =
    .done (2 ^ 64 - 1) ⟨2 ^ 64 - 1, 70, true⟩ [] ∧
    (IntR.new 0xff 0).read ([0x81, 0xfe] ++ List.replicate 7 0xff ++ [0x01]) = .fail .integerOverflow := by
  decide +kernel

/-- Whatever the bytes, the only error is the one for integers that are too large; in particular nothing
panics. -/
theorem C38_error {b : UInt8} {bs : Bytes} {len : Nat} {e : Err} (hl : len < 8)
    (h : (IntR.new b len).read bs = .fail e) : e = .integerOverflow := int_fail hl h

/-- What is written is the integer, in at most eleven bytes, and keeps the bits before it. -/
theorem C38_write {p : Prefix} (hp : p.Ok) {n : Nat} (hn : n < 2 ^ 64) :
    IntIs p.len n (encodeInt p n) ∧ (encodeInt p n).length ≤ 11 ∧
    ∃ b i, encodeInt p n = b :: i ∧ topBits p.len b.toNat = topBits p.len p.pre := by
  obtain ⟨h1, h2, b, i, h3, h4, -⟩ := encode_int_ok hp hn
  exact ⟨h1, h2, b, i, h3, h4⟩

/-- All prefixes that are used. -/
example : ∀ p ∈ [noPrefix, decoderHeaderAck, decoderStreamCancellation, decoderInsertCountIncrement, encoderCapacity,
    encoderInsertWithNameRefStatic, encoderInsertWithNameRefDynamic, encoderDuplicate, basePrefixPositive,
    basePrefixNegative, headerFieldIndexStatic, headerFieldIndexDynamic, headerFieldIndexDynamicPost,
    headerFieldLiteralNameRefStatic, headerFieldLiteralNameRefDynamic, headerFieldLiteralNameRefDynamicPost], p.Ok := by
  have h : ∀ p : Prefix, (decide (p.len < 8 ∧ p.pre < 256 ∧ p.pre % 2 ^ (8 - p.len) = 0)) = true → p.Ok := by
    intro p hp
    obtain ⟨h1, h2, h3⟩ := of_decide_eq_true hp
    exact ⟨h1, h2, h3⟩
  intro p hp
  apply h
  revert p
  decide +kernel

/-- Any integer of 64 bits, written with any prefix, is read again, in any pieces, and exactly its bytes are
taken. -/
theorem C38_round_trip {p : Prefix} (hp : p.Ok) {n : Nat} (hn : n < 2 ^ 64) {rest : Bytes} :
    ∃ b i, encodeInt p n = b :: i ∧ topBits p.len b.toNat = topBits p.len p.pre ∧
      ∀ cs : List Bytes, cs.flatten = i ++ rest → ∃ r, feed IntR.read (IntR.new b p.len) cs = .done n r rest := by
  obtain ⟨h1, h2, b, i, h3, h4, -⟩ := encode_int_ok hp hn
  refine ⟨b, i, h3, h4, fun cs hcs => ?_⟩
  rw [C38_chunks, hcs]
  rw [h3] at h1 h2
  exact (int_iff hp.len_lt).mpr ⟨i, rfl, h1, hn, by simp at h2; omega⟩

example : encodeInt encoderCapacity 1337 = [0x3f, 0x9a, 0x0a] ∧ encodeInt encoderCapacity 10 = [0x2a] := by decide +kernel

/-- No bytes stand for two integers. -/
theorem C38_unambiguous {len m n : Nat} {x y r q : Bytes} (hx : IntIs len m x) (hy : IntIs len n y) (h : x ++ r = y ++ q) :
    m = n ∧ r = q := by
  obtain ⟨rfl, rfl⟩ := int_unique hx hy h
  exact ⟨rfl, List.append_cancel_left h⟩

/-! ## C39: Huffman coding -/

/-- A string is decoded exactly from the codes of its bytes, followed by less than eight ones. -/
theorem C39_decode {b s : Bytes} : huffDecode b = .ok s ↔ ∃ k, k < 8 ∧ bits b = codes s ++ List.replicate k true := decode_iff

/-- "www.example.com" (RFC 7541, C.4.1). -/
example : huffDecode [0xf1, 0xe3, 0xc2, 0xe5, 0xf2, 0x3a, 0x6b, 0xa0, 0xab, 0x90, 0xf4, 0xff] =
    .ok "www.example.com".toUTF8.toList := by decide +kernel

/-- Every string can be encoded, and what is written stands for it. -/
theorem C39_encode (s : Bytes) : ∃ b, huffEncode s = .ok b ∧ ∃ k, k < 8 ∧ bits b = codes s ++ List.replicate k true := by
  obtain ⟨b, k, h⟩ := encode_bits s
  exact ⟨b, h.1, k, h.2⟩

example : huffEncode "302".toUTF8.toList = .ok [0x64, 0x02] := by decide +kernel

/-- Decoding the encoding of any string gives it back. -/
theorem C39_round_trip (s : Bytes) : ∃ b, huffEncode s = .ok b ∧ huffDecode b = .ok s := by
  obtain ⟨b, k, h1, h2, h3⟩ := encode_bits s
  exact ⟨b, h1, decode_iff.mpr ⟨k, h2, h3⟩⟩

/-- No bytes stand for two strings. -/
theorem C39_unambiguous {b s s' : Bytes} (h : HuffIs s b) (h' : HuffIs s' b) : s = s' :=
  Except.ok.inj ((decode_iff.mpr h).symm.trans (decode_iff.mpr h'))

/-- What is not decoded is rejected with the error for this. -/
theorem C39_error {b : Bytes} (h : ¬ ∃ s, HuffIs s b) : huffDecode b = .error .huffmanDecompression := by
  cases hd : huffDecode b with
  | ok s => exact absurd ⟨s, decode_iff.mp hd⟩ h
  | error e => rw [decode_err hd]

/-- A string with the code of EOS in it is rejected. -/
theorem C39_eos {b s : Bytes} {t : List Bool} (h : bits b = codes s ++ (code 256 ++ t)) :
    huffDecode b = .error .huffmanDecompression := by
  apply C39_error
  rintro ⟨s', k, hk, h'⟩
  rw [h] at h'
  have h1 := (codes_unique (fun c z => eos_no_code t c z) (pad_no_code hk) h').2
  have h2 := congrArg List.length h1
  rw [List.length_append, List.length_replicate, show (code 256).length = 30 by decide +kernel] at h2
  omega

/-- "0", then EOS, and padding. -/
example : bits [0x07, 0xff, 0xff, 0xff, 0xff] = codes [48] ++ (code 256 ++ List.replicate 5 true) ∧
    huffDecode [0x07, 0xff, 0xff, 0xff, 0xff] = .error .huffmanDecompression := by decide +kernel

/-- Whatever is left after the last code, a part of a code, is rejected unless it is less than eight ones. -/
theorem C39_padding {b s : Bytes} {a : Nat} {p t : List Bool} (ha : a < 257) (ht : t ≠ []) (hp : code a = p ++ t)
    (hbad : ¬ (p.length < 8 ∧ ∀ x ∈ p, x = true)) (h : bits b = codes s ++ p) :
    huffDecode b = .error .huffmanDecompression := by
  apply C39_error
  rintro ⟨s', k, hk, h'⟩
  rw [h] at h'
  have h1 := (codes_unique (fun c z => part_no_code ha ht hp c z) (pad_no_code hk) h').2
  subst h1
  exact hbad ⟨by rw [List.length_replicate]; exact hk, fun x hx => (List.mem_replicate.mp hx).2⟩

/-- Eight ones, and three zeros. -/
example : bits [0xff] = codes [] ++ List.replicate 8 true ∧ code 256 = List.replicate 8 true ++ List.replicate 22 true ∧
    huffDecode [0xff] = .error .huffmanDecompression ∧
    bits [0x00] = codes [48] ++ [false, false, false] ∧ code 48 = [false, false, false] ++ [false, false] ∧
    huffDecode [0x00] = .error .huffmanDecompression := by decide +kernel

/-- Every sequence of bits is the codes of some symbols and a part of a code: the code is complete. -/
theorem C39_complete (x : List Bool) : ∃ (cs : List Nat) (a : Nat) (p t : List Bool), (∀ c ∈ cs, c < 257) ∧ a < 257 ∧ t ≠ [] ∧
    code a = p ++ t ∧ x = cs.flatMap code ++ p := by
  have hfull : ∀ (n : Node) (x : List Bool) (q : List Bool), full n = true → paths n q = true → walk n x = none →
      ∃ a t, a < 257 ∧ t ≠ [] ∧ code a = q.reverse ++ (x ++ t) := by
    intro n
    induction n with
    | leaf v => intro x q _ _ h; cases h
    | stop => intro x q h; cases h
    | inner l r ihl ihr =>
      intro x q hf hq hw
      simp only [full, Bool.and_eq_true] at hf
      simp only [paths, Bool.and_eq_true] at hq
      cases x with
      | nil =>
        have hleft : ∀ (n : Node) (q : List Bool), full n = true → paths n q = true → ∃ a t, a < 257 ∧ code a = q.reverse ++ t := by
          intro n
          induction n with
          | leaf v =>
            intro q _ h
            simp only [paths, Bool.and_eq_true, decide_eq_true_eq] at h
            exact ⟨v, [], h.1, by rw [← h.2]; simp⟩
          | stop => intro q h; cases h
          | inner l r ihl _ =>
            intro q hf hq
            simp only [full, Bool.and_eq_true] at hf
            simp only [paths, Bool.and_eq_true] at hq
            obtain ⟨a, t, h1, h2⟩ := ihl _ hf.1 hq.1
            exact ⟨a, false :: t, h1, by rw [h2]; simp⟩
        obtain ⟨a, t, h1, h2⟩ := hleft l _ hf.1 hq.1
        exact ⟨a, false :: t, h1, by simp, by rw [h2]; simp⟩
      | cons b bs =>
        cases b
        · obtain ⟨a, t, h1, h2, h3⟩ := ihl bs _ hf.1 hq.1 hw
          exact ⟨a, t, h1, h2, by rw [h3]; simp⟩
        · obtain ⟨a, t, h1, h2, h3⟩ := ihr bs _ hf.2 hq.2 hw
          exact ⟨a, t, h1, h2, by rw [h3]; simp⟩
  generalize hn : x.length = n
  induction n using Nat.strongRecOn generalizing x with
  | _ n ih =>
    cases hw : walk root x with
    | none =>
      obtain ⟨a, t, h1, h2, h3⟩ := hfull root x [] full_root paths_root hw
      exact ⟨[], a, x, t, by simp, h1, h2, by simpa using h3, by simp⟩
    | some y =>
      obtain ⟨v, r⟩ := y
      obtain ⟨hv, rfl⟩ := walk_inv hw
      have hne := code_ne hv
      obtain ⟨cs, a, p, t, h1, h2, h3, h4, h5⟩ := ih r.length
        (by rw [← hn, List.length_append]; have := List.length_pos_iff.mpr hne; omega) r rfl
      exact ⟨v :: cs, a, p, t, by simpa using ⟨hv, h1⟩, h2, h3, h4, by rw [h5]; simp⟩

example : [false, false, false, false, false, true, true] = [48].flatMap code ++ [true, true] := by decide +kernel

/-- The codes are the canonical ones for their lengths (RFC 7541, section 5.2 and appendix B): sorted by length and
symbol they follow each other without gaps, and they use up all sequences of 30 bits. -/
theorem C39_canonical : (∀ i < 257, ∀ e ∈ huffmanTable[i]?, e.val * 2 ^ (30 - e.len) =
      ((huffmanTable.zipIdx.filter (fun y => decide (y.1.len < e.len ∨ (y.1.len = e.len ∧ y.2 < i)))).map
        (fun y => 2 ^ (30 - y.1.len))).sum) ∧
    (huffmanTable.map (fun e => 2 ^ (30 - e.len))).sum = 2 ^ 30 ∧ huffmanTable.length = 257 := by
  decide +kernel

example : (huffmanTable.map Entry.len).take 60 = List.replicate 1 13 ++ [23] ++ List.replicate 7 28 ++ [24, 30, 28, 28, 30] ++
    List.replicate 8 28 ++ [30] ++ List.replicate 9 28 ++
    [6, 10, 10, 12, 13, 6, 8, 11, 10, 10, 8, 11, 8, 6, 6, 6, 5, 5, 5, 6, 6, 6, 6, 6, 6, 6, 7, 8] := by decide +kernel

/-! ## C62: string literals -/

/-- Reading takes exactly the bytes of a literal, if it is not longer than 384 KiB on the wire. -/
theorem C62_read {b : UInt8} {len : Nat} {s bs rest : Bytes} (hl : len < 7) :
    (∃ r, (LitR.new b len).read bs = .done s r rest) ↔
      ∃ i e, b :: bs = b :: i ++ e ++ rest ∧ IntIs (len + 1) e.length (b :: i) ∧ i.length ≤ 10 ∧ e.length ≤ 384 * 1024 ∧
        if b.toNat.testBit (7 - len) then HuffIs s e else s = e := by
  rw [lit_iff hl]
  constructor
  · rintro ⟨i, e, rfl, h⟩; exact ⟨i, e, rfl, h⟩
  · rintro ⟨i, e, h, h1⟩; exact ⟨i, e, (List.cons.inj h).2, h1⟩

/-- "custom-key" with the Huffman bit after two others (RFC 7541, C.4.3). -/
example : (LitR.new 0x68 2).read [0x25, 0xa8, 0x49, 0xe9, 0x5b, 0xa9, 0x7d, 0x7f, 9] =
    .done "custom-key".toUTF8.toList ⟨.done, true⟩ [9] := by decide +kernel

/-- What a reader of literals says does not depend on how the bytes were cut in pieces. -/
theorem C62_chunks (r : LitR) (cs : List Bytes) : feed LitR.read r cs = r.read cs.flatten := feed_eq lit_resumable r cs

example : feed LitR.read LitR.fresh [[0x88], [0x25, 0xa8, 0x49], [], [0xe9, 0x5b, 0xa9, 0x7d, 0x7f, 9]] =
    .done "custom-key".toUTF8.toList ⟨.done, true⟩ [9] := by decide +kernel

/-- A literal that is part of a header block is read exactly if it is complete. -/
theorem C62_read_block {len : Nat} {s bs rest : Bytes} (hl : len < 7) :
    bufLiteral len bs = .ok (s, rest) ↔
      ∃ b i e, bs = b :: i ++ e ++ rest ∧ IntIs (len + 1) e.length (b :: i) ∧ i.length ≤ 10 ∧ e.length ≤ 384 * 1024 ∧
        if b.toNat.testBit (7 - len) then HuffIs s e else s = e := bufLiteral_iff hl

example : bufLiteral 2 [0x68, 0x25, 0xa8, 0x49, 0xe9, 0x5b, 0xa9, 0x7d, 0x7f, 9] = .ok ("custom-key".toUTF8.toList, [9]) ∧
    bufLiteral 2 [0x68, 0x25, 0xa8, 0x49, 0xe9, 0x5b, 0xa9, 0x7d] = .error .decompression := by decide +kernel

/-- A string, written with or without Huffman coding after any bits, is read again, in any pieces, as is what
follows it, and the bits before it are kept; but it must fit in 384 KiB, with Huffman coding at 30 bits for
a byte. -/
theorem C62_round_trip_partial {huff : Bool} {p : Prefix} (hp : p.LitOk) {s rest : Bytes}
    (hs : (if huff then 30 * s.length else 8 * s.length) ≤ 8 * (384 * 1024)) :
    ∃ b i, encodeLiteral huff p s = .ok (b :: i) ∧ topBits p.len b.toNat = topBits p.len p.pre ∧
      bufLiteral p.len (b :: i ++ rest) = .ok (s, rest) ∧
      ∀ cs : List Bytes, cs.flatten = i ++ rest → ∃ r, feed LitR.read (LitR.new b p.len) cs = .done s r rest := by
  obtain ⟨b, i, e, h1, h2, h3, h4, h5, -, h7⟩ := encode_lit_ok (huff := huff) hp (s := s)
    (by cases huff <;> simp only [Bool.false_eq_true, if_false, if_true] at hs <;> omega)
  have he : e.length ≤ 384 * 1024 := by
    cases huff <;> simp only [Bool.false_eq_true, if_false, if_true] at hs h7 <;> omega
  refine ⟨b, i ++ e, by rw [h1]; rfl, h5, ?_, fun cs hcs => ?_⟩
  · exact (bufLiteral_iff hp.len_lt).mpr ⟨b, i, e, rfl, h2, h3, he, h4⟩
  · rw [C62_chunks, hcs]
    exact (lit_iff hp.len_lt).mpr ⟨i, e, rfl, h2, h3, he, h4⟩

example : encodeLiteral true encoderInsertWithNameLiteral "custom-key".toUTF8.toList =
    .ok [0x68, 0x25, 0xa8, 0x49, 0xe9, 0x5b, 0xa9, 0x7d, 0x7f] ∧
    encodeLiteral false encoderInsertWithNameLiteral [1, 2, 3] = .ok [0x43, 1, 2, 3] ∧
    encoderInsertWithNameLiteral.LitOk ∧ noPrefix.LitOk ∧ headerFieldLiteralNameLiteral.LitOk := by
  refine ⟨by decide +kernel, by decide +kernel, ⟨?_, ?_, ?_⟩, ⟨?_, ?_, ?_⟩, ⟨?_, ?_, ?_⟩⟩ <;> decide

/-- A literal that is longer than 384 KiB on the wire is refused as soon as its length is known. -/
theorem C62_too_long {b : UInt8} {i rest : Bytes} {len n : Nat} (hl : len < 7) (h : IntIs (len + 1) n (b :: i))
    (h64 : n < 2 ^ 64) (hi : i.length ≤ 10) (hn : 384 * 1024 < n) :
    (LitR.new b len).read (i ++ rest) = .fail .decoding ∧ bufLiteral len (b :: i ++ rest) = .error .decompression := by
  constructor
  · obtain ⟨r, hr⟩ := (int_iff (rest := rest) (show len + 1 < 8 by omega)).mpr ⟨i, rfl, h, h64, hi⟩
    simp only [LitR.new, LitR.read, LitR.readLen]
    rw [hr]
    simp only
    rw [if_neg (by unfold maxLiteral; omega)]
  · have hb : bufInt (len + 1) (b :: i ++ rest) = .ok (n, rest) :=
      (bufInt_iff (by omega)).mpr ⟨b :: i, rfl, h, h64, by simp; omega⟩
    rw [List.cons_append] at hb ⊢
    simp only [bufLiteral, hb]
    rw [if_pos (by unfold maxLiteral; omega)]

/-- 384 KiB and one byte. -/
example : encodeInt ⟨0, 1, 0⟩ (384 * 1024 + 1) = [0x7f, 0x82, 0xff, 0x17] ∧
    (LitR.new 0x7f 0).read [0x82, 0xff, 0x17] = .fail .decoding ∧
    (LitR.new 0x7f 0).read [0x81, 0xff, 0x17] = .more ⟨.readLiteral (384 * 1024) [], false⟩ := by decide +kernel

/-- Strings with rare characters grow when they are Huffman coded: one that would have fitted is written, but is
refused by the reader. -/
theorem C62_short_string_refused {n : Nat} (h1 : 104858 ≤ n) (h2 : n ≤ 384 * 1024) {b : UInt8} {i : Bytes}
    (h : encodeLiteral true noPrefix (List.replicate n 10) = .ok (b :: i)) :
    (LitR.new b 0).read i = .fail .decoding := by
  have hp : noPrefix.LitOk := ⟨by decide, by decide, by decide⟩
  obtain ⟨b', i', e, g1, g2, g3, g4, g5, g6, g7⟩ := encode_lit_ok (huff := true) hp (s := List.replicate n 10)
    (by rw [List.length_replicate]; omega)
  rw [g1] at h
  have h := Except.ok.inj h
  rw [List.cons_append] at h
  obtain ⟨rfl, rfl⟩ := List.cons.inj h
  rw [if_pos g6] at g4
  obtain ⟨k, hk, g8⟩ := g4
  have hlen : ∀ n, (codes (List.replicate n 10)).length = 30 * n := by
    intro n
    induction n with
    | zero => rfl
    | succ n ih =>
      have : codes (List.replicate (n + 1) 10) = code 10 ++ codes (List.replicate n 10) := by simp [codes, List.replicate_succ]
      rw [this, List.length_append, ih, show (code 10).length = 30 by decide +kernel]; omega
  have g9 := congrArg List.length g8
  rw [bits_length, List.length_append, hlen, List.length_replicate] at g9
  rw [if_pos rfl, List.length_replicate] at g7
  exact (C62_too_long (len := 0) (by omega) g2 (by omega) g3 (by omega)).1

example : code 10 = List.replicate 28 true ++ [false, false] := by decide +kernel

end Neqo.Qp
