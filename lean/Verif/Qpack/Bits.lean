import Verif.Qpack.Int

/-! # Bits, and Huffman coding in terms of bits -/
namespace Neqo.Qp
open Neqo.Codec Spec

theorem natBits_length (n v : Nat) : (natBits n v).length = n := by
  induction n with
  | zero => rfl
  | succ n ih => simp [natBits, ih]

theorem natBits_add (a b v : Nat) : natBits (a + b) v = natBits a (v >>> b) ++ natBits b v := by
  induction a with
  | zero => simp [natBits]
  | succ a ih =>
    rw [show a + 1 + b = (a + b) + 1 by omega]
    simp only [natBits, ih, List.cons_append, Nat.testBit_shiftRight]
    rw [Nat.add_comm]

theorem natBits_congr {n v w : Nat} (h : v % 2 ^ n = w % 2 ^ n) : natBits n v = natBits n w := by
  induction n with
  | zero => rfl
  | succ n ih =>
    have h1 : v.testBit n = w.testBit n := by
      have a := Nat.testBit_mod_two_pow v (n + 1) n
      have b := Nat.testBit_mod_two_pow w (n + 1) n
      rw [h, b] at a
      simpa using a.symm
    have h2 : v % 2 ^ n = w % 2 ^ n := by
      have a := Nat.mod_mod_of_dvd v (Nat.pow_dvd_pow 2 (Nat.le_succ n))
      have b := Nat.mod_mod_of_dvd w (Nat.pow_dvd_pow 2 (Nat.le_succ n))
      rw [← a, ← b, h]
    simp only [natBits, h1, ih h2]

theorem natBits_inj {n v w : Nat} (h : natBits n v = natBits n w) : v % 2 ^ n = w % 2 ^ n := by
  induction n with
  | zero => simp [Nat.mod_one]
  | succ n ih =>
    simp only [natBits, List.cons.injEq] at h
    have h2 := ih h.2
    have h1 := h.1
    rw [Nat.testBit_eq_decide_div_mod_eq, Nat.testBit_eq_decide_div_mod_eq] at h1
    rw [pow_succ, Nat.mod_mul, Nat.mod_mul, h2]
    have : v / 2 ^ n % 2 = w / 2 ^ n % 2 := by
      have := decide_eq_decide.mp h1
      omega
    rw [this]

theorem natBits_mod {n m v : Nat} (h : n ≤ m) : natBits n (v % 2 ^ m) = natBits n v :=
  natBits_congr (Nat.mod_mod_of_dvd v (Nat.pow_dvd_pow 2 h))

/-- Bits of a number that is put together. -/
theorem natBits_join {a k hi lo : Nat} (h : lo < 2 ^ k) : natBits (a + k) (hi * 2 ^ k + lo) = natBits a hi ++ natBits k lo := by
  rw [natBits_add]
  congr 1
  · rw [Nat.shiftRight_eq_div_pow, Nat.mul_comm, Nat.mul_add_div (Nat.pow_pos (by omega)), Nat.div_eq_of_lt h, Nat.add_zero]
  · apply natBits_congr
    rw [Nat.add_mod, Nat.mul_mod_left, Nat.zero_add, Nat.mod_mod]

theorem testBit_ones {k n : Nat} (h : n < k) : (2 ^ k - 1).testBit n = true := by
  rw [Nat.testBit_two_pow_sub_one]; simpa using h

theorem natBits_ones (n k : Nat) (h : n ≤ k) : natBits n (2 ^ k - 1) = List.replicate n true := by
  induction n with
  | zero => rfl
  | succ n ih => simp only [natBits, testBit_ones (show n < k by omega), ih (by omega), List.replicate_succ]

theorem ones_iff {n v : Nat} : v &&& ((1 <<< n) - 1) = (1 <<< n) - 1 ↔ natBits n v = List.replicate n true := by
  rw [Nat.one_shiftLeft, Nat.and_two_pow_sub_one_eq_mod, ← natBits_ones n n le_rfl]
  constructor
  · intro h
    apply natBits_congr
    rw [h, Nat.mod_eq_of_lt]
    have : 0 < 2 ^ n := Nat.pow_pos (by omega)
    omega
  · intro h
    have := natBits_inj h
    rw [this, Nat.mod_eq_of_lt]
    have : 0 < 2 ^ n := Nat.pow_pos (by omega)
    omega

theorem bits_append (a b : Bytes) : bits (a ++ b) = bits a ++ bits b := by simp [bits]

theorem bits_length (b : Bytes) : (bits b).length = 8 * b.length := by
  induction b with
  | nil => rfl
  | cons x xs ih => simp only [bits, List.flatMap_cons, List.length_append, natBits_length, List.length_cons] at *; omega

theorem bits_single (b : UInt8) : bits [b] = natBits 8 b.toNat := by simp [bits]

/-! ## Encoding -/

/-- What was written is `B`, so far. -/
structure HuffE.Inv (s : HuffE) (B : List Bool) : Prop where
  left : 1 ≤ s.left ∧ s.left ≤ 8
  hi : ∃ h, s.saved = h * 2 ^ s.left ∧ h < 2 ^ (8 - s.left) ∧ bits s.out ++ natBits (8 - s.left) h = B

theorem pow_split {a b : Nat} (h : a ≤ b) : 2 ^ b = 2 ^ (b - a) * 2 ^ a := by
  rw [← pow_add]; congr 1; omega

theorem or_mul {h k x : Nat} (hx : x < 2 ^ k) : h * 2 ^ k ||| x = h * 2 ^ k + x := or_low (Nat.mul_mod_left h (2 ^ k)) hx

theorem full_ok {val n len : Nat} (h : len < 8 * (n + 1)) :
    bits (fullBytes val n len).1 ++ natBits (fullBytes val n len).2 val = natBits len val ∧
    (fullBytes val n len).2 < 8 := by
  induction n generalizing len with
  | zero => simp [fullBytes, bits]; omega
  | succ n ih =>
    unfold fullBytes
    split
    · rename_i h8
      have := ih (len := len - 8) (by omega)
      refine ⟨?_, this.2⟩
      simp only
      rw [show ∀ (x : UInt8) (xs : Bytes), bits (x :: xs) = natBits 8 x.toNat ++ bits xs from fun x xs => by simp [bits],
        List.append_assoc, this.1]
      rw [show (0xff : Nat) = 2 ^ 8 - 1 from rfl, Nat.and_two_pow_sub_one_eq_mod, toNat_byte (Nat.mod_lt _ (by decide)),
        show (256 : Nat) = 2 ^ 8 from rfl, natBits_mod le_rfl, ← natBits_add]
      congr 1; omega
    · simp [bits]; omega

theorem push_ok {s : HuffE} {B : List Bool} {e : Entry} (hs : s.Inv B) (hv : e.val < 2 ^ e.len) (hl : e.len ≤ 30) :
    ∃ s', s.push e = .ok s' ∧ s'.Inv (B ++ natBits e.len e.val) := by
  obtain ⟨⟨hl1, hl8⟩, h, hsv, hlt, hB⟩ := hs
  unfold HuffE.push
  split
  · rename_i hlen
    refine ⟨_, rfl, ⟨by simp only; omega, h * 2 ^ e.len + e.val, ?_, ?_, ?_⟩⟩
    · have h1 : e.val < 256 := lt_of_lt_of_le hv (Nat.pow_le_pow_right (by omega) (show e.len ≤ 8 by omega))
      have h2 : e.val * 2 ^ (s.left - e.len) < 2 ^ s.left := by
        rw [pow_split (show s.left - e.len ≤ s.left by omega), show s.left - (s.left - e.len) = e.len by omega]
        exact Nat.mul_lt_mul_of_pos_right hv (Nat.pow_pos (by omega))
      have h3 : 2 ^ s.left ≤ 256 := Nat.pow_le_pow_right (by omega) hl8
      have h4 : e.val &&& 0xff = e.val := by
        rw [show (0xff : Nat) = 2 ^ 8 - 1 from rfl, Nat.and_two_pow_sub_one_eq_mod]; exact Nat.mod_eq_of_lt h1
      simp only
      rw [h4, Nat.shiftLeft_eq, Nat.mod_eq_of_lt (by omega), hsv, or_mul h2, Nat.add_mul, Nat.mul_assoc, ← pow_add]
      congr 3; omega
    · simp only
      rw [show 8 - (s.left - e.len) = (8 - s.left) + e.len by omega, pow_add]
      have : (h + 1) * 2 ^ e.len ≤ 2 ^ (8 - s.left) * 2 ^ e.len := Nat.mul_le_mul (by omega) le_rfl
      rw [Nat.add_mul] at this; omega
    · simp only
      rw [show 8 - (s.left - e.len) = (8 - s.left) + e.len by omega, natBits_join hv, ← List.append_assoc, hB]
  · rename_i hlen
    have hx : e.val >>> (e.len - s.left) < 2 ^ s.left := by
      rw [Nat.shiftRight_eq_div_pow, Nat.div_lt_iff_lt_mul (Nat.pow_pos (by omega)), ← pow_add,
        show s.left + (e.len - s.left) = e.len by omega]
      exact hv
    have h3 : 2 ^ s.left ≤ 256 := Nat.pow_le_pow_right (by omega) hl8
    rw [if_neg (by omega)]
    have hf := full_ok (val := e.val) (n := 4) (len := e.len - s.left) (by omega)
    have hbyte : natBits 8 (UInt8.ofNat (s.saved ||| e.val >>> (e.len - s.left))).toNat =
        natBits (8 - s.left) h ++ natBits s.left (e.val >>> (e.len - s.left)) := by
      rw [hsv, or_mul hx, toNat_byte, ← natBits_join hx, show 8 - s.left + s.left = 8 by omega]
      have h5 : (h + 1) * 2 ^ s.left ≤ 2 ^ (8 - s.left) * 2 ^ s.left := Nat.mul_le_mul (by omega) le_rfl
      rw [← pow_add, show 8 - s.left + s.left = 8 by omega, Nat.add_mul] at h5
      omega
    have hall : bits (s.out ++ [UInt8.ofNat (s.saved ||| e.val >>> (e.len - s.left))] ++
        (fullBytes e.val 4 (e.len - s.left)).1) ++ natBits (fullBytes e.val 4 (e.len - s.left)).2 e.val =
        B ++ natBits e.len e.val := by
      rw [bits_append, bits_append, bits_single, hbyte, List.append_assoc, hf.1, ← hB]
      simp only [List.append_assoc]
      rw [← natBits_add, show s.left + (e.len - s.left) = e.len by omega]
    generalize hfb : fullBytes e.val 4 (e.len - s.left) = fb at *
    obtain ⟨bs, len⟩ := fb
    simp only at hf hall ⊢
    by_cases h0 : len > 0
    · have hm : e.val &&& ((1 <<< len) - 1) = e.val % 2 ^ len := by
        rw [Nat.one_shiftLeft, Nat.and_two_pow_sub_one_eq_mod]
      have hm2 : e.val % 2 ^ len < 2 ^ len := Nat.mod_lt _ (Nat.pow_pos (by omega))
      have hm3 : 2 ^ len ≤ 128 := Nat.pow_le_pow_right (by omega) (show len ≤ 7 by omega)
      rw [if_pos h0, hm, if_neg (by omega)]
      refine ⟨_, rfl, ⟨by simp only; omega, e.val % 2 ^ len, ?_, ?_, ?_⟩⟩
      · simp only
        rw [Nat.shiftLeft_eq, Nat.mod_eq_of_lt]
        have h5 : e.val % 2 ^ len * 2 ^ (8 - len) < 2 ^ len * 2 ^ (8 - len) :=
          Nat.mul_lt_mul_of_pos_right hm2 (Nat.pow_pos (by omega))
        rw [← pow_add, show len + (8 - len) = 8 by omega] at h5
        exact h5
      · simp only; rw [show 8 - (8 - len) = len by omega]; exact hm2
      · simp only; rw [show 8 - (8 - len) = len by omega, natBits_mod le_rfl]; exact hall
    · rw [if_neg h0]
      have h00 : len = 0 := by omega
      subst h00
      exact ⟨_, rfl, ⟨by simp, 0, by simp, by simp, by simpa [natBits] using hall⟩⟩

theorem table_ok : ∀ e ∈ huffmanTable, e.val < 2 ^ e.len ∧ e.len ≤ 30 ∧ 5 ≤ e.len := by decide +kernel

theorem table_length : huffmanTable.length = 257 := by decide +kernel

theorem entry_of {c : Nat} (h : c < 257) : ∃ e, huffmanTable[c]? = some e ∧ e ∈ huffmanTable := by
  have h1 : c < huffmanTable.length := by rw [table_length]; exact h
  exact ⟨huffmanTable[c], List.getElem?_eq_getElem h1, List.getElem_mem h1⟩

theorem run_ok {s : HuffE} {B : List Bool} {cs : Bytes} (hs : s.Inv B) :
    ∃ s', s.run cs = .ok s' ∧ s'.Inv (B ++ codes cs) := by
  induction cs generalizing s B with
  | nil => exact ⟨s, rfl, by simpa [codes] using hs⟩
  | cons c cs ih =>
    obtain ⟨e, he, hm⟩ := entry_of (c := c.toNat) (by have := c.toNat_lt; omega)
    obtain ⟨s1, h1, i1⟩ := push_ok hs (table_ok e hm).1 (table_ok e hm).2.1
    obtain ⟨s2, h2, i2⟩ := ih i1
    refine ⟨s2, ?_, ?_⟩
    · simp only [HuffE.run, he, h1, h2]
    · have : codes (c :: cs) = natBits e.len e.val ++ codes cs := by simp [codes, code, he]
      rw [this, ← List.append_assoc]; exact i2

theorem encode_bits (s : Bytes) : ∃ b k, huffEncode s = .ok b ∧ k < 8 ∧ bits b = codes s ++ List.replicate k true := by
  obtain ⟨s', h, i⟩ := run_ok (s := ⟨[], 8, 0⟩) (B := []) (cs := s) ⟨by simp, 0, by simp, by simp, by simp [bits, natBits]⟩
  obtain ⟨⟨hl1, hl8⟩, hi, hsv, hlt, hB⟩ := i
  unfold huffEncode
  rw [h]
  by_cases hl : s'.left < 8
  · refine ⟨_, s'.left, if_pos hl, hl, ?_⟩
    have h1 : 2 ^ s'.left - 1 < 2 ^ s'.left := by have : 0 < 2 ^ s'.left := Nat.pow_pos (by omega); omega
    rw [bits_append, bits_single, hsv, Nat.one_shiftLeft, or_mul h1, toNat_byte,
      show (8 : Nat) = (8 - s'.left) + s'.left by omega, natBits_join h1, natBits_ones _ _ le_rfl, ← List.append_assoc]
    · rw [hB]; rfl
    · have h5 : (hi + 1) * 2 ^ s'.left ≤ 2 ^ (8 - s'.left) * 2 ^ s'.left := Nat.mul_le_mul (by omega) le_rfl
      rw [← pow_add, show 8 - s'.left + s'.left = 8 by omega, Nat.add_mul] at h5
      omega
  · refine ⟨_, 0, if_neg hl, by omega, ?_⟩
    have h8 : s'.left = 8 := by omega
    rw [h8] at hB
    simpa [natBits] using hB

end Neqo.Qp
