import Verif.Qpack.Bits

/-! # Huffman decoding in terms of bits -/
namespace Neqo.Qp
open Neqo.Codec Spec

/-- From a node, along bits, to a leaf. -/
def walk : Node → List Bool → Option (Nat × List Bool)
  | .leaf v, bs => some (v, bs)
  | .stop, _ => none
  | .inner _ _, [] => none
  | .inner a _, false :: bs => walk a bs
  | .inner _ b, true :: bs => walk b bs

/-- Every node has two successors, or is a leaf. -/
def full : Node → Bool
  | .leaf _ => true
  | .stop => false
  | .inner a b => full a && full b

/-- The way to a leaf is its code. -/
def paths : Node → List Bool → Bool
  | .leaf v, p => decide (v < 257) && decide (p.reverse = code v)
  | .stop, _ => true
  | .inner a b, p => paths a (false :: p) && paths b (true :: p)

theorem full_root : full root = true := by decide +kernel

theorem paths_root : paths root [] = true := by decide +kernel

theorem walk_codes : (List.range 257).all (fun c => decide (walk root (code c) = some (c, []))) = true := by
  decide +kernel

theorem walk_ones : (List.range 8).all (fun k => decide (walk root (List.replicate k true) = none)) = true := by
  decide +kernel

theorem walk_append {t : Node} {p q r : List Bool} {v : Nat} (h : walk t p = some (v, r)) :
    walk t (p ++ q) = some (v, r ++ q) := by
  induction t generalizing p with
  | leaf x => cases h; rfl
  | stop => cases h
  | inner a b iha ihb =>
    cases p with
    | nil => cases h
    | cons x xs =>
      cases x
      · exact iha h
      · exact ihb h

theorem walk_path {t : Node} {p bs r : List Bool} {v : Nat} (ht : paths t p = true) (h : walk t bs = some (v, r)) :
    v < 257 ∧ code v ++ r = p.reverse ++ bs := by
  induction t generalizing p bs with
  | leaf x =>
    cases h
    simp only [paths, Bool.and_eq_true, decide_eq_true_eq] at ht
    exact ⟨ht.1, by rw [ht.2]⟩
  | stop => cases h
  | inner a b iha ihb =>
    simp only [paths, Bool.and_eq_true] at ht
    cases bs with
    | nil => cases h
    | cons x xs =>
      cases x
      · have := iha ht.1 h
        exact ⟨this.1, by rw [this.2]; simp⟩
      · have := ihb ht.2 h
        exact ⟨this.1, by rw [this.2]; simp⟩

theorem walk_code {c : Nat} (h : c < 257) (q : List Bool) : walk root (code c ++ q) = some (c, q) := by
  have := List.all_eq_true.mp walk_codes c (List.mem_range.mpr h)
  exact walk_append (of_decide_eq_true this)

theorem walk_inv {bs r : List Bool} {v : Nat} (h : walk root bs = some (v, r)) : v < 257 ∧ bs = code v ++ r := by
  have := walk_path paths_root h
  exact ⟨this.1, by rw [this.2]; rfl⟩

theorem walk_pad {k : Nat} (h : k < 8) : walk root (List.replicate k true) = none :=
  of_decide_eq_true (List.all_eq_true.mp walk_ones k (List.mem_range.mpr h))

attribute [local irreducible] root

/-! ## The reader of bits -/

/-- The bits that a reader has not taken. -/
def BitR.rem (r : BitR) : List Bool := (bits r.input).drop (8 * r.offset + (8 - r.bit))

/-- States that occur. -/
def BitR.WF (r : BitR) : Prop :=
  r.input ≠ [] ∧ ((r.offset < r.input.length ∧ r.bit ≤ 8) ∨ (r.offset = r.input.length ∧ r.bit = 0))

/-- All bits were taken, and this was noticed. -/
def BitR.end (r : BitR) : BitR := ⟨r.input, r.input.length, 0⟩

theorem drop_bits (b : Bytes) (i : Nat) (h : i < b.length) :
    (bits b).drop (8 * i) = natBits 8 (byteAt b i) ++ (bits b).drop (8 * (i + 1)) := by
  induction b generalizing i with
  | nil => simp at h
  | cons x xs ih =>
    have hx : bits (x :: xs) = natBits 8 x.toNat ++ bits xs := by simp [bits]
    have hd : ∀ j, (bits (x :: xs)).drop (8 * (j + 1)) = (bits xs).drop (8 * j) := by
      intro j
      rw [hx, List.drop_append, List.drop_of_length_le (by rw [natBits_length]; omega), natBits_length, List.nil_append,
        show 8 * (j + 1) - 8 = 8 * j by omega]
    cases i with
    | zero =>
      rw [hd 0]
      simp only [Nat.mul_zero, List.drop_zero, hx]
      rfl
    | succ i =>
      rw [hd (i + 1), hd i]
      exact ih i (by simpa using h)

theorem drop_bits' {b : Bytes} {i j : Nat} (h : i < b.length) (hj : j ≤ 8) :
    (bits b).drop (8 * i + (8 - j)) = natBits j (byteAt b i) ++ (bits b).drop (8 * (i + 1)) := by
  rw [← List.drop_drop, drop_bits b i h, List.drop_append]
  have hs : natBits 8 (byteAt b i) = natBits (8 - j) (byteAt b i >>> j) ++ natBits j (byteAt b i) := by
    rw [← natBits_add]; congr 1; omega
  rw [hs, List.drop_left' (natBits_length _ _), List.length_append, natBits_length, natBits_length,
    show 8 - j - (8 - j + j) = 0 by omega, List.drop_zero]

theorem test_bit (v n : Nat) : decide ((v >>> n) &&& 1 = 1) = v.testBit n := by
  rw [Nat.testBit_eq_decide_div_mod_eq, Nat.and_one_is_mod, Nat.shiftRight_eq_div_pow]

theorem read_some {r : BitR} {x : Bool} {xs : List Bool} (hw : r.WF) (h : r.rem = x :: xs) :
    ∃ r', r.read = (some x, r') ∧ r'.WF ∧ r'.rem = xs ∧ r'.input = r.input := by
  obtain ⟨hne, hw⟩ := hw
  have hlt : r.offset < r.input.length := by
    rcases hw with hw | hw
    · exact hw.1
    · unfold BitR.rem at h
      rw [hw.1, List.drop_of_length_le (by rw [bits_length]; omega)] at h; cases h
  have hb : r.bit ≤ 8 := by rcases hw with hw | hw <;> omega
  unfold BitR.read
  rw [if_neg (by omega)]
  by_cases h0 : r.bit = 0
  · have hr : r.rem = (bits r.input).drop (8 * (r.offset + 1)) := by
      unfold BitR.rem; rw [h0]; congr 1
    have hlt2 : r.offset + 1 < r.input.length := by
      by_contra hc
      rw [hr, List.drop_of_length_le (by rw [bits_length]; omega)] at h; cases h
    rw [hr, drop_bits _ _ hlt2] at h
    simp only [h0, if_true]
    rw [if_neg (by omega)]
    simp only [natBits, List.cons_append, List.cons.injEq] at h
    refine ⟨⟨r.input, r.offset + 1, 7⟩, ?_, ⟨hne, Or.inl ⟨hlt2, by simp⟩⟩, ?_, rfl⟩
    · rw [test_bit, h.1]
    · unfold BitR.rem
      rw [drop_bits' hlt2 (by simp), ← h.2]; rfl
  · have hr : r.rem = _ := drop_bits' hlt hb
    obtain ⟨j, hj⟩ : ∃ j, r.bit = j + 1 := ⟨r.bit - 1, by omega⟩
    rw [hr, hj] at h
    simp only [natBits, List.cons_append, List.cons.injEq] at h
    simp only [if_neg h0]
    rw [if_neg (by omega), test_bit]
    refine ⟨⟨r.input, r.offset, j⟩, ?_, ⟨hne, Or.inl ⟨hlt, by simp only; omega⟩⟩, ?_, rfl⟩
    · rw [hj, Nat.add_sub_cancel, h.1]
    · unfold BitR.rem
      rw [drop_bits' hlt (by simp only; omega), ← h.2]

theorem read_none {r : BitR} (hw : r.WF) (h : r.rem = []) : r.read = (none, r.end) := by
  obtain ⟨hne, hw⟩ := hw
  unfold BitR.read BitR.end
  rcases hw with hw | hw
  · have h0 : r.bit = 0 ∧ r.offset + 1 = r.input.length := by
      have := congrArg List.length h
      unfold BitR.rem at this
      rw [List.length_drop, bits_length, List.length_nil] at this
      omega
    rw [if_neg (by omega)]
    simp only [h0.1, if_true]
    rw [if_pos h0.2, ← h0.2]
  · rw [if_pos hw.1.symm, ← hw.1]
    obtain ⟨i, o, b⟩ := r
    simp only at hw
    simp only [hw.2]

theorem char_ok {t : Node} {r : BitR} {i : Nat} (ht : full t = true) (hw : r.WF) :
    (∀ v rest, walk t r.rem = some (v, rest) →
      ∃ r', decodeChar t r i = .ok (some v, r') ∧ r'.WF ∧ r'.rem = rest ∧ r'.input = r.input) ∧
    (walk t r.rem = none →
      decodeChar t r i = (r.end.verifyEnding (i + r.rem.length)).map fun r => (none, r)) := by
  induction t generalizing r i with
  | leaf x =>
    refine ⟨?_, (fun h => by cases h)⟩
    intro v rest h
    cases h
    exact ⟨r, rfl, hw, rfl, rfl⟩
  | stop => cases ht
  | inner a b iha ihb =>
    simp only [full, Bool.and_eq_true] at ht
    cases hr : r.rem with
    | nil =>
      refine ⟨(fun v rest h => by cases h), fun _ => ?_⟩
      simp only [decodeChar, read_none hw hr]
      rfl
    | cons x xs =>
      obtain ⟨r', h1, h2, h3, h4⟩ := read_some hw hr
      have he : r'.end = r.end := by unfold BitR.end; rw [h4]
      cases x
      · have := iha (r := r') (i := i + 1) ht.1 h2
        rw [h3] at this
        simp only [decodeChar, h1]
        refine ⟨?_, ?_⟩
        · intro v rest h
          obtain ⟨r2, a1, a2, a3, a4⟩ := this.1 v rest h
          exact ⟨r2, a1, a2, a3, a4.trans h4⟩
        · intro h
          rw [this.2 h, he, List.length_cons]
          congr 2; omega
      · have := ihb (r := r') (i := i + 1) ht.2 h2
        rw [h3] at this
        simp only [decodeChar, h1]
        refine ⟨?_, ?_⟩
        · intro v rest h
          obtain ⟨r2, a1, a2, a3, a4⟩ := this.1 v rest h
          exact ⟨r2, a1, a2, a3, a4.trans h4⟩
        · intro h
          rw [this.2 h, he, List.length_cons]
          congr 2; omega

/-- The end is accepted if the bits that are left are ones, and no more than seven. -/
theorem ending {r : BitR} (hw : r.WF) :
    r.end.verifyEnding r.rem.length =
      if r.rem.length < 8 ∧ r.rem = List.replicate r.rem.length true then .ok r.end else .error .huffmanDecompression := by
  have hne := hw.1
  have hlen : 0 < r.input.length := List.length_pos_iff.mpr hne
  unfold BitR.verifyEnding
  simp only [BitR.end, Nat.add_zero, hne, if_false, ne_eq, not_true_eq_false]
  by_cases h8 : r.rem.length < 8
  · rw [if_neg (by omega)]
    have hd : r.rem = natBits r.rem.length (byteAt r.input (r.input.length - 1)) := by
      have h1 : r.rem.length = 8 * r.input.length - (8 * r.offset + (8 - r.bit)) := by
        unfold BitR.rem; rw [List.length_drop, bits_length]
      have h2 : r.rem = (bits r.input).drop (8 * (r.input.length - 1) + (8 - r.rem.length)) := by
        rw [h1]; unfold BitR.rem
        by_cases h3 : 8 * r.offset + (8 - r.bit) ≤ 8 * r.input.length
        · congr 1; omega
        · rw [List.drop_of_length_le (by rw [bits_length]; omega), List.drop_of_length_le (by rw [bits_length]; omega)]
      rw [drop_bits' (by omega) (by omega), List.drop_of_length_le (l := bits r.input) (i := 8 * (r.input.length - 1 + 1)) (by rw [bits_length]; omega),
        List.append_nil] at h2
      exact h2
    have hi := ones_iff (n := r.rem.length) (v := byteAt r.input (r.input.length - 1))
    rw [← hd] at hi
    simp only [hi, h8, true_and]
  · rw [if_pos (by omega), if_neg (by omega)]

theorem end_done {r : BitR} (out : Bytes) (n : Nat) : huffLoop root (n + 1) r.end out = .ok out := by
  simp [huffLoop, BitR.more, BitR.end]

theorem end_wf {r : BitR} (hw : r.WF) : r.end.WF := ⟨hw.1, Or.inr ⟨rfl, rfl⟩⟩

theorem code_ne {c : Nat} (h : c < 257) : code c ≠ [] := by
  obtain ⟨e, he, hm⟩ := entry_of h
  intro hc
  have := congrArg List.length hc
  simp only [code, he, natBits_length, List.length_nil] at this
  have := (table_ok e hm).2.2
  omega

theorem loop_iff {n : Nat} {r : BitR} {out s : Bytes} (hw : r.WF) (hn : r.rem.length + 2 ≤ n) :
    huffLoop root n r out = .ok s ↔ ∃ t k, s = out ++ t ∧ k < 8 ∧ r.rem = codes t ++ List.replicate k true := by
  induction n generalizing r out with
  | zero => omega
  | succ n ih =>
    cases hm : r.more
    · have hr : r.rem = [] := by
        simp only [BitR.more, Bool.and_eq_false_iff, Bool.or_eq_false_iff, decide_eq_false_iff_not, ne_eq,
          Decidable.not_not, Bool.not_eq_false', List.isEmpty_iff] at hm
        rcases hm with hm | hm
        · exact absurd hm hw.1
        · unfold BitR.rem; rw [hm.1, List.drop_of_length_le (by rw [bits_length]; omega)]
      rw [hr]
      simp only [huffLoop, hm, Bool.false_eq_true, if_false]
      constructor
      · intro h; cases h
        exact ⟨[], 0, by simp, by omega, by simp [codes]⟩
      · rintro ⟨t, k, rfl, -, h⟩
        have : t = [] := by
          cases t with
          | nil => rfl
          | cons c t =>
            exfalso
            have h1 := congrArg List.length h
            have h2 := List.length_pos_iff.mpr (code_ne (c := c.toNat) (by have := c.toNat_lt; omega))
            simp [codes] at h1
            omega
        rw [this, List.append_nil]
    · simp only [huffLoop, hm, if_true]
      cases hwk : walk root r.rem with
      | none =>
        rw [(char_ok full_root hw).2 hwk, Nat.zero_add, ending hw]
        have hnil : ∀ t k, r.rem = codes t ++ List.replicate k true → t = [] := by
          intro t k h
          cases t with
          | nil => rfl
          | cons c t =>
            exfalso
            have hc : codes (c :: t) = code c.toNat ++ codes t := by simp [codes]
            rw [h, hc, List.append_assoc, walk_code (by have := c.toNat_lt; omega)] at hwk
            cases hwk
        obtain ⟨m, rfl⟩ : ∃ m, n = m + 1 := ⟨n - 1, by omega⟩
        by_cases hc : r.rem.length < 8 ∧ r.rem = List.replicate r.rem.length true
        · rw [if_pos hc]
          simp only [Except.map, end_done]
          constructor
          · intro h; cases h
            exact ⟨[], r.rem.length, by simp, hc.1, by simpa [codes] using hc.2⟩
          · rintro ⟨t, k, rfl, -, h⟩
            rw [hnil t k h, List.append_nil]
        · rw [if_neg hc]
          simp only [Except.map]
          constructor
          · intro h; cases h
          · rintro ⟨t, k, -, hk, h⟩
            exfalso
            apply hc
            rw [hnil t k h] at h
            have h : r.rem = List.replicate k true := by simpa [codes] using h
            rw [h, List.length_replicate]
            exact ⟨hk, rfl⟩
      | some x =>
        obtain ⟨v, rest⟩ := x
        obtain ⟨r', h1, h2, h3, h4⟩ := (char_ok (i := 0) full_root hw).1 v rest hwk
        obtain ⟨hv, hrem⟩ := walk_inv hwk
        have hlen : rest.length + 1 ≤ r.rem.length := by
          rw [hrem, List.length_append]
          have := List.length_pos_iff.mpr (code_ne hv)
          omega
        have hcons : ∀ t k, k < 8 → r.rem = codes t ++ List.replicate k true →
            ∃ c t', t = c :: t' ∧ v = c.toNat ∧ rest = codes t' ++ List.replicate k true := by
          intro t k hk h
          cases t with
          | nil =>
            rw [h, show codes [] = [] from rfl, List.nil_append, walk_pad hk] at hwk; cases hwk
          | cons c t =>
            have hc : codes (c :: t) = code c.toNat ++ codes t := by simp [codes]
            rw [h, hc, List.append_assoc, walk_code (by have := c.toNat_lt; omega)] at hwk
            have := Prod.mk.inj (Option.some.inj hwk)
            exact ⟨c, t, rfl, this.1.symm, this.2.symm⟩
        simp only [h1]
        split
        · rename_i hlt
          rw [ih h2 (by rw [h3]; omega), h3]
          have hvn : (UInt8.ofNat v).toNat = v := toNat_byte hlt
          constructor
          · rintro ⟨t, k, rfl, hk, h⟩
            refine ⟨UInt8.ofNat v :: t, k, by simp, hk, ?_⟩
            rw [hrem, h, show codes (UInt8.ofNat v :: t) = code (UInt8.ofNat v).toNat ++ codes t from by simp [codes],
              hvn, List.append_assoc]
          · rintro ⟨t, k, rfl, hk, h⟩
            obtain ⟨c, t', rfl, hvc, hrest⟩ := hcons t k hk h
            refine ⟨t', k, ?_, hk, hrest⟩
            have : UInt8.ofNat v = c := by rw [hvc]; exact UInt8.ofNat_toNat
            rw [this]; simp
        · rename_i hge
          constructor
          · intro h; cases h
          · rintro ⟨t, k, -, hk, h⟩
            obtain ⟨c, t', -, hvc, -⟩ := hcons t k hk h
            have := c.toNat_lt
            omega

theorem loop_err {n : Nat} {r : BitR} {out : Bytes} {e : Err} (hw : r.WF) (hn : r.rem.length + 2 ≤ n)
    (h : huffLoop root n r out = .error e) : e = .huffmanDecompression := by
  induction n generalizing r out with
  | zero => omega
  | succ n ih =>
    simp only [huffLoop] at h
    split at h
    · cases hwk : walk root r.rem with
      | none =>
        rw [(char_ok full_root hw).2 hwk, Nat.zero_add, ending hw] at h
        obtain ⟨m, rfl⟩ : ∃ m, n = m + 1 := ⟨n - 1, by omega⟩
        split at h
        · rename_i hs
          split at hs
          · cases hs
          · cases hs; cases h; rfl
        · rename_i hs
          split at hs
          · cases hs; rw [end_done] at h; cases h
          · cases hs
        · rename_i hs
          split at hs <;> cases hs
      | some x =>
        obtain ⟨v, rest⟩ := x
        obtain ⟨r', h1, h2, h3, h4⟩ := (char_ok (i := 0) full_root hw).1 v rest hwk
        obtain ⟨hv, hrem⟩ := walk_inv hwk
        have hlen : rest.length + 1 ≤ r.rem.length := by
          rw [hrem, List.length_append]
          have := List.length_pos_iff.mpr (code_ne hv)
          omega
        simp only [h1] at h
        split at h
        · exact ih h2 (by rw [h3]; omega) h
        · cases h; rfl
    · cases h

theorem new_wf {b : Bytes} (h : b ≠ []) : (BitR.new b).WF :=
  ⟨h, Or.inl ⟨List.length_pos_iff.mpr h, le_rfl⟩⟩

theorem new_rem (b : Bytes) : (BitR.new b).rem = bits b := rfl

theorem decode_iff {b s : Bytes} : huffDecode b = .ok s ↔ ∃ k, k < 8 ∧ bits b = codes s ++ List.replicate k true := by
  unfold huffDecode
  by_cases hb : b = []
  · subst hb
    have : huffLoop root (8 * ([] : Bytes).length + 2) (BitR.new []) [] = .ok [] := by decide +kernel
    rw [this]
    constructor
    · intro h; cases h; exact ⟨0, by omega, rfl⟩
    · rintro ⟨k, _, h⟩
      cases s with
      | nil => rfl
      | cons c s =>
        exfalso
        have h1 := congrArg List.length h
        have h2 := List.length_pos_iff.mpr (code_ne (c := c.toNat) (by have := c.toNat_lt; omega))
        simp [codes, bits] at h1
        omega
  · rw [loop_iff (new_wf hb) (by rw [new_rem, bits_length]), new_rem]
    constructor
    · rintro ⟨t, k, rfl, hk, h⟩; exact ⟨k, hk, h⟩
    · rintro ⟨k, hk, h⟩; exact ⟨s, k, rfl, hk, h⟩

theorem decode_err {b : Bytes} {e : Err} (h : huffDecode b = .error e) : e = .huffmanDecompression := by
  by_cases hb : b = []
  · subst hb
    have : huffDecode [] = .ok [] := by decide +kernel
    rw [this] at h; cases h
  · exact loop_err (new_wf hb) (by rw [new_rem, bits_length]) h

end Neqo.Qp
