import Verif.Qpack.Decode
import Verif.Qpack.Literal

/-! # Reading and writing string literals -/
namespace Neqo.Qp
open Neqo.Codec Spec

theorem huff_bit : ∀ len < 8, ∀ b < 256, (b &&& (0x80 >>> len) ≠ 0 ↔ b.testBit (7 - len) = true) := by
  decide +kernel

theorem readLit_resume (huff : Bool) (len : Nat) (got a b : Bytes) :
    LitR.readLit huff len got (a ++ b) = (LitR.readLit huff len got a).resume LitR.read b := by
  unfold LitR.readLit
  simp only [List.take_append, List.drop_append, ← List.append_assoc]
  by_cases h : (got ++ a.take (len - got.length)).length = len
  · have h1 : len - got.length ≤ a.length := by
      simp only [List.length_append, List.length_take] at h; omega
    have h2 : len - got.length - a.length = 0 := by omega
    simp only [h2, List.take_zero, List.append_nil, h, if_true, List.drop_zero]
    cases huff
    · rfl
    · simp only [if_true]
      cases huffDecode (got ++ a.take (len - got.length)) <;> rfl
  · rw [if_neg h]
    by_cases h1 : got.length ≤ len
    · have h2 : a.length < len - got.length := by
        simp only [List.length_append, List.length_take] at h; omega
      have h3 : a.take (len - got.length) = a := List.take_of_length_le (by omega)
      have h4 : a.drop (len - got.length) = [] := List.drop_of_length_le (by omega)
      have h5 : len - got.length - a.length = len - (got ++ a).length := by rw [List.length_append]; omega
      simp only [h3, h4, List.nil_append, R.resume, LitR.read, LitR.readLit, h5]
    · have h2 : len - got.length = 0 := by omega
      simp only [h2, List.take_zero, List.append_nil, Nat.zero_sub, R.resume, LitR.read, LitR.readLit]
      simp only [h2, List.take_zero, List.append_nil] at h
      simp [h]

theorem readLen_resume (huff : Bool) (r : IntR) (a b : Bytes) :
    LitR.readLen huff r (a ++ b) = (LitR.readLen huff r a).resume LitR.read b := by
  unfold LitR.readLen
  rw [int_resumable r a b]
  cases h : r.read a with
  | done v s rest =>
    simp only [R.resume]
    by_cases hv : v ≤ maxLiteral
    · rw [if_pos hv, if_pos hv]; exact readLit_resume ..
    · rw [if_neg hv, if_neg hv]
  | more s => rfl
  | fail e => rfl

theorem lit_resumable : Resumable LitR.read := by
  rintro ⟨st, huff⟩ a b
  cases st with
  | readHuffman =>
    cases a with
    | nil => rfl
    | cons x xs => exact readLen_resume ..
  | readLength r => exact readLen_resume ..
  | readLiteral len got => exact readLit_resume ..
  | done => rfl

theorem readLit_iff {huff : Bool} {len : Nat} {s bs rest : Bytes} :
    (∃ r, LitR.readLit huff len [] bs = .done s r rest) ↔
      ∃ e, bs = e ++ rest ∧ e.length = len ∧ if huff then HuffIs s e else s = e := by
  unfold LitR.readLit
  simp only [List.nil_append, List.length_nil, Nat.sub_zero]
  by_cases h : (bs.take len).length = len
  · rw [if_pos h]
    cases huff
    · simp only [Bool.false_eq_true, if_false]
      constructor
      · rintro ⟨r, h1⟩; cases h1
        exact ⟨bs.take len, (List.take_append_drop len bs).symm, h, rfl⟩
      · rintro ⟨e, rfl, rfl, rfl⟩
        exact ⟨_, by rw [List.take_left' rfl, List.drop_left' rfl]⟩
    · simp only [if_true]
      constructor
      · rintro ⟨r, h1⟩
        cases hd : huffDecode (bs.take len) with
        | error e => rw [hd] at h1; cases h1
        | ok v =>
          rw [hd] at h1; cases h1
          exact ⟨bs.take len, (List.take_append_drop len bs).symm, h, decode_iff.mp hd⟩
      · rintro ⟨e, rfl, rfl, h1⟩
        refine ⟨⟨.done, true⟩, ?_⟩
        rw [List.take_left' rfl, List.drop_left' rfl, decode_iff.mpr h1]
  · rw [if_neg h]
    constructor
    · rintro ⟨r, h1⟩; cases h1
    · rintro ⟨e, rfl, rfl, h1⟩
      rw [List.take_left' rfl] at h; exact absurd rfl h

/-- A literal whose first byte is known. -/
theorem readLen_iff {huff : Bool} {b : UInt8} {len : Nat} {s bs rest : Bytes} (hl : len < 8) :
    (∃ r, LitR.readLen huff (IntR.new b len) bs = .done s r rest) ↔
      ∃ i e, bs = i ++ e ++ rest ∧ IntIs len e.length (b :: i) ∧ i.length ≤ 10 ∧ e.length ≤ maxLiteral ∧
        if huff then HuffIs s e else s = e := by
  have hmax : maxLiteral < 2 ^ 64 := by decide
  unfold LitR.readLen
  constructor
  · rintro ⟨r, h⟩
    cases hr : (IntR.new b len).read bs with
    | more r => rw [hr] at h; cases h
    | fail e => rw [hr] at h; cases h
    | done v q tl =>
      rw [hr] at h
      obtain ⟨i, rfl, h1, h2, h3⟩ := (int_iff hl).mp ⟨q, hr⟩
      simp only at h
      split at h
      · rename_i hv
        obtain ⟨e, rfl, rfl, h4⟩ := readLit_iff.mp ⟨r, h⟩
        exact ⟨i, e, by simp, h1, h3, hv, h4⟩
      · cases h
  · rintro ⟨i, e, rfl, h1, h2, h3, h4⟩
    obtain ⟨q, hq⟩ := (int_iff (rest := e ++ rest) (bs := i ++ e ++ rest) hl).mpr ⟨i, by simp, h1, by omega, h2⟩
    rw [hq]
    simp only [h3, if_true]
    exact readLit_iff.mpr ⟨e, rfl, rfl, h4⟩

/-- What a literal is, with the limits of the readers. -/
theorem lit_iff {b : UInt8} {len : Nat} {s bs rest : Bytes} (hl : len < 7) :
    (∃ r, (LitR.new b len).read bs = .done s r rest) ↔
      ∃ i e, bs = i ++ e ++ rest ∧ IntIs (len + 1) e.length (b :: i) ∧ i.length ≤ 10 ∧ e.length ≤ maxLiteral ∧
        if b.toNat.testBit (7 - len) then HuffIs s e else s = e := by
  have hb := huff_bit len (by omega) b.toNat b.toNat_lt
  have hd : decide (b.toNat &&& (0x80 >>> len) ≠ 0) = b.toNat.testBit (7 - len) := by
    cases ht : b.toNat.testBit (7 - len)
    · rw [ht] at hb; simpa using hb
    · rw [ht] at hb; simpa using hb
  simp only [LitR.new, LitR.read, hd]
  exact readLen_iff (by omega)

theorem fresh_iff {s bs rest : Bytes} :
    (∃ r, LitR.fresh.read bs = .done s r rest) ↔
      ∃ b bs', bs = b :: bs' ∧ ∃ r, (LitR.new b 0).read bs' = .done s r rest := by
  cases bs with
  | nil =>
    constructor
    · rintro ⟨r, h⟩; cases h
    · rintro ⟨b, bs', h, _⟩; cases h
  | cons b bs =>
    constructor
    · rintro h; exact ⟨b, bs, rfl, h⟩
    · rintro ⟨b', bs', h1, h2⟩
      cases h1
      exact h2

theorem bufInt_iff {len n : Nat} {bs rest : Bytes} (hl : len < 8) :
    bufInt len bs = .ok (n, rest) ↔
      ∃ i, bs = i ++ rest ∧ IntIs len n i ∧ n < 2 ^ 64 ∧ i.length ≤ 11 := by
  cases bs with
  | nil =>
    constructor
    · intro h; cases h
    · rintro ⟨i, h, hi, _⟩
      obtain ⟨rfl, -⟩ := List.append_eq_nil_iff.mp h.symm
      exact hi.elim
  | cons b bs =>
    have hi := int_iff (b := b) (bs := bs) (rest := rest) (n := n) hl
    constructor
    · intro h
      simp only [bufInt] at h
      split at h
      · rename_i v q tl hr
        cases h
        obtain ⟨i, rfl, h1, h2, h3⟩ := hi.mp ⟨q, hr⟩
        exact ⟨b :: i, rfl, h1, h2, by simp; omega⟩
      · cases h
      · cases h
    · rintro ⟨i, h, h1, h2, h3⟩
      cases i with
      | nil => exact h1.elim
      | cons x xs =>
        obtain ⟨rfl, rfl⟩ := List.cons.inj h
        obtain ⟨r, hr⟩ := hi.mpr ⟨xs, rfl, h1, h2, by simp at h3; omega⟩
        simp only [bufInt]
        have hr' : (IntR.new b len).read (xs.append rest) = .done n r rest := hr
        rw [hr']

theorem bufLiteral_iff {len : Nat} {s bs rest : Bytes} (hl : len < 7) :
    bufLiteral len bs = .ok (s, rest) ↔
      ∃ b i e, bs = b :: i ++ e ++ rest ∧ IntIs (len + 1) e.length (b :: i) ∧ i.length ≤ 10 ∧ e.length ≤ maxLiteral ∧
        if b.toNat.testBit (7 - len) then HuffIs s e else s = e := by
  have hmax : maxLiteral < 2 ^ 64 := by decide
  cases bs with
  | nil =>
    constructor
    · intro h; cases h
    · rintro ⟨b, i, e, h, _⟩; cases h
  | cons b bs =>
    have hb := huff_bit len (by omega) b.toNat b.toNat_lt
    simp only [bufLiteral]
    constructor
    · intro h
      cases hi : bufInt (len + 1) (b :: bs) with
      | error e => rw [hi] at h; cases h
      | ok x =>
        obtain ⟨n, tl⟩ := x
        obtain ⟨i, h1, h2, h3, h4⟩ := (bufInt_iff (by omega)).mp hi
        rw [hi] at h
        simp only at h
        split at h
        · cases h
        · rename_i hn
          unfold bufSlice at h
          by_cases hs : n > tl.length
          · rw [if_pos hs] at h; cases h
          · rw [if_neg hs] at h
            simp only at h
            cases i with
            | nil => exact h2.elim
            | cons x xs =>
              obtain ⟨rfl, rfl⟩ := List.cons.inj h1
              have hlen : (tl.take n).length = n := by rw [List.length_take]; omega
              by_cases ht : b.toNat &&& (0x80 >>> len) ≠ 0
              · rw [if_pos ht] at h
                cases hd : huffDecode (tl.take n) with
                | error e => rw [hd] at h; cases h
                | ok v =>
                  rw [hd] at h
                  cases h
                  refine ⟨b, xs, tl.take n, by simp, by rw [hlen]; exact h2, by simp at h4; omega, by omega, ?_⟩
                  rw [if_pos (hb.mp ht)]
                  exact decode_iff.mp hd
              · rw [if_neg ht] at h
                cases h
                refine ⟨b, xs, tl.take n, by simp, by rw [hlen]; exact h2, by simp at h4; omega, by omega, ?_⟩
                rw [if_neg (fun h => ht (hb.mpr h))]
    · rintro ⟨b', i, e, h, h1, h2, h3, h4⟩
      have h : b :: bs = b' :: (i ++ e ++ rest) := h
      obtain ⟨rfl, rfl⟩ := List.cons.inj h
      have hi : bufInt (len + 1) (b :: (i ++ e ++ rest)) = .ok (e.length, e ++ rest) :=
        (bufInt_iff (by omega)).mpr ⟨b :: i, by simp, h1, by omega, by simp; omega⟩
      rw [hi]
      simp only
      rw [if_neg (by omega)]
      unfold bufSlice
      rw [if_neg (by simp)]
      simp only [List.take_left' rfl, List.drop_left' rfl]
      by_cases ht : b.toNat &&& (0x80 >>> len) ≠ 0
      · rw [if_pos (hb.mp ht)] at h4
        rw [if_pos ht, decode_iff.mpr h4]
        rfl
      · rw [if_neg (fun h => ht (hb.mpr h))] at h4
        rw [if_neg ht, h4]

/-- A prefix with room for the bit of Huffman coding. -/
structure Prefix.LitOk (p : Prefix) : Prop where
  len_lt : p.len < 7
  pre_lt : p.pre < 256
  low : p.pre % 2 ^ (8 - p.len) = 0

theorem lit_prefix : ∀ len < 7, ∀ pre < 256, pre % 2 ^ (8 - len) = 0 →
    (pre ||| (0x80 >>> len)) < 256 ∧ (pre ||| (0x80 >>> len)) % 2 ^ (8 - (len + 1)) = 0 ∧
    (pre ||| (0x80 >>> len)).testBit (7 - len) = true ∧
    (pre ||| (0x80 >>> len)) &&& ((1 <<< (8 - (len + 1))) - 1) = 0 ∧
    (pre ||| (0x80 >>> len)) / 2 ^ (8 - len) = pre / 2 ^ (8 - len) := by decide +kernel

theorem lit_prefix_plain : ∀ len < 7, ∀ pre < 256, pre % 2 ^ (8 - len) = 0 →
    pre % 2 ^ (8 - (len + 1)) = 0 ∧ pre.testBit (7 - len) = false ∧
    pre &&& ((1 <<< (8 - (len + 1))) - 1) = 0 := by decide +kernel

theorem top_split : ∀ len < 7, ∀ a < 256, ∀ b < 256, topBits (len + 1) a = topBits (len + 1) b →
    topBits len a = topBits len b ∧ a.testBit (7 - len) = b.testBit (7 - len) := by
  intro len hl a ha b hb h
  unfold topBits at *
  constructor
  · have e : ∀ x, x / 2 ^ (8 - len) = x / 2 ^ (8 - (len + 1)) / 2 := by
      intro x
      rw [Nat.div_div_eq_div_mul, ← pow_succ]
      congr 2; omega
    rw [e a, e b, h]
  · rw [Nat.testBit_eq_decide_div_mod_eq, Nat.testBit_eq_decide_div_mod_eq,
      show 7 - len = 8 - (len + 1) by omega, h]

/-- What is written is a literal with the prefix in its first byte. -/
theorem encode_lit_ok {huff : Bool} {p : Prefix} (hp : p.LitOk) {s : Bytes} (hlen : s.length < 2 ^ 60) :
    ∃ b i e, encodeLiteral huff p s = .ok (b :: i ++ e) ∧ IntIs (p.len + 1) e.length (b :: i) ∧ i.length ≤ 10 ∧
      (if b.toNat.testBit (7 - p.len) then HuffIs s e else s = e) ∧
      topBits p.len b.toNat = topBits p.len p.pre ∧ b.toNat.testBit (7 - p.len) = huff ∧
      e.length ≤ (if huff then (30 * s.length + 7) / 8 else s.length) := by
  obtain ⟨l1, l2, l4, l6, l8⟩ := lit_prefix p.len hp.len_lt p.pre hp.pre_lt hp.low
  obtain ⟨l3, l5, l7⟩ := lit_prefix_plain p.len hp.len_lt p.pre hp.pre_lt hp.low
  have hl := hp.len_lt
  obtain ⟨e, he, hh, hlen2⟩ : ∃ e, (if huff then huffEncode s else .ok s) = .ok e ∧ (if huff then HuffIs s e else s = e) ∧
      e.length ≤ (if huff then (30 * s.length + 7) / 8 else s.length) := by
    cases huff
    · exact ⟨s, rfl, rfl, le_rfl⟩
    · obtain ⟨e, k, h1, h2, h3⟩ := encode_bits s
      refine ⟨e, h1, ⟨k, h2, h3⟩, ?_⟩
      simp only [if_true]
      have h4 : (codes s).length ≤ 30 * s.length := by
        clear h1 h3 hlen
        induction s with
        | nil => simp [codes]
        | cons c cs ih =>
          obtain ⟨en, he, hm⟩ := entry_of (c := c.toNat) (by have := c.toNat_lt; omega)
          have := (table_ok en hm).2.1
          have hc : codes (c :: cs) = natBits en.len en.val ++ codes cs := by simp [codes, code, he]
          rw [hc, List.length_append, natBits_length, List.length_cons]; omega
      have h5 := congrArg List.length h3
      rw [bits_length, List.length_append, List.length_replicate] at h5
      omega
  have he64 : e.length < 2 ^ 64 := by
    cases huff <;> simp only [Bool.false_eq_true, if_false, if_true] at hlen2 <;> omega
  have hnew : ∃ rp, Prefix.new (if huff then p.pre ||| (0x80 >>> p.len) else p.pre) (p.len + 1) = .ok rp ∧
      rp.Ok ∧ rp.len = p.len + 1 ∧ rp.pre = (if huff then p.pre ||| (0x80 >>> p.len) else p.pre) := by
    unfold Prefix.new
    cases huff
    · exact ⟨_, if_pos ⟨by omega, Or.inr l7⟩, ⟨by simp only; omega, hp.pre_lt, l3⟩, rfl, rfl⟩
    · exact ⟨_, if_pos ⟨by omega, Or.inr l6⟩, ⟨by simp only; omega, l1, l2⟩, rfl, rfl⟩
  obtain ⟨rp, hn1, hn2, hn3, hn4⟩ := hnew
  obtain ⟨i1, i2, b, i, i3, i4, -⟩ := encode_int_ok hn2 he64
  have htop := top_split p.len hl b.toNat b.toNat_lt rp.pre hn2.pre_lt (by rw [← hn3]; exact i4)
  have hbit : b.toNat.testBit (7 - p.len) = huff := by
    rw [htop.2, hn4]; cases huff
    · exact l5
    · exact l4
  refine ⟨b, i, e, ?_, ?_, ?_, ?_, ?_, hbit, hlen2⟩
  · unfold encodeLiteral
    rw [hn1]
    simp only [he, i3]
  · rw [← hn3, ← i3]; exact i1
  · rw [i3] at i2; simp at i2; omega
  · rw [hbit]; exact hh
  · rw [htop.1, hn4]; cases huff
    · rfl
    · exact l8

end Neqo.Qp
