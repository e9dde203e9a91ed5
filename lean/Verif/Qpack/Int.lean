import Verif.Qpack.Model
import Verif.Qpack.Spec
import Mathlib.Tactic.Ring
import Mathlib.Tactic.NormNum

/-! # Reading and writing QPACK integers -/
namespace Neqo.Qp
open Neqo.Codec Spec

theorem toNat_byte {n : Nat} (h : n < 256) : (UInt8.ofNat n).toNat = n := by
  rw [UInt8.toNat_ofNat']; exact Nat.mod_eq_of_lt h

theorem and127 (n : Nat) : n &&& 0x7f = n % 128 := Nat.and_two_pow_sub_one_eq_mod n 7

theorem and128 : ∀ n < 256, (n &&& 0x80 = 0 ↔ n < 128) := by decide +kernel

theorem firstMax_eq (len : Nat) (h : len < 8) : firstMax len = 2 ^ (8 - len) - 1 := by
  unfold firstMax
  split
  · subst len; rfl
  · rw [Nat.one_shiftLeft]

theorem and_firstMax (len n : Nat) (h : len < 8) : n &&& firstMax len = n % 2 ^ (8 - len) := by
  rw [firstMax_eq len h, Nat.and_two_pow_sub_one_eq_mod]

theorem read_fin {r : IntR} (h : r.fin = true) (bs : Bytes) : r.read bs = .done r.value r bs := by
  cases bs <;> simp [IntR.read, h]

/-- A reader that has taken some bytes. -/
theorem read_step {v i : Nat} {b : UInt8} {bs : Bytes} (hi : i < 9) (hv : v < 2 ^ (7 * i) + 255) :
    IntR.read ⟨v, 7 * i, false⟩ (b :: bs) =
      IntR.read ⟨v + (b.toNat % 128) * 2 ^ (7 * i), 7 * (i + 1), decide (b.toNat < 128)⟩ bs := by
  have hb := b.toNat_lt
  have h1 : 7 * i ≠ 63 := by omega
  have h2 : ¬ 7 * i ≥ 64 := by omega
  have h3 : ¬ 7 * i + 7 ≥ 64 := by omega
  have h4 : 2 ^ (7 * i) ≤ 2 ^ 56 := Nat.pow_le_pow_right (by omega) (by omega)
  have h5 : (b.toNat % 128) * 2 ^ (7 * i) ≤ 127 * 2 ^ 56 := Nat.mul_le_mul (by omega) h4
  have h6 : (b.toNat % 128) * 2 ^ (7 * i) % 2 ^ 64 = (b.toNat % 128) * 2 ^ (7 * i) :=
    Nat.mod_eq_of_lt (by omega)
  have h7 : ¬ v + (b.toNat % 128) * 2 ^ (7 * i) ≥ 2 ^ 64 := by omega
  have h8 := and128 b.toNat hb
  simp only [IntR.read, Bool.false_eq_true, if_false, h1, false_and, h2, and127, Nat.shiftLeft_eq, h6, h7, h3,
    decide_false, Bool.or_false, h8]
  rfl

theorem read_last {v : Nat} {b : UInt8} {bs : Bytes} (hv : v < 2 ^ 63 + 255) :
    IntR.read ⟨v, 63, false⟩ (b :: bs) =
      if v + b.toNat * 2 ^ 63 < 2 ^ 64 then .done (v + b.toNat * 2 ^ 63) ⟨v + b.toNat * 2 ^ 63, 70, true⟩ bs
      else .fail .integerOverflow := by
  have hb := b.toNat_lt
  by_cases h1 : b.toNat > 1
  · have : ¬ v + b.toNat * 2 ^ 63 < 2 ^ 64 := by omega
    rw [if_neg this]
    simp [IntR.read, h1]
  · by_cases h2 : b.toNat = 1
    · by_cases h3 : v ≥ 2 ^ 63
      · have h4 : v >>> 63 = 1 := by rw [Nat.shiftRight_eq_div_pow]; omega
        have : ¬ v + b.toNat * 2 ^ 63 < 2 ^ 64 := by omega
        rw [if_neg this]
        simp [IntR.read, h2, h4]
      · have h4 : v >>> 63 = 0 := by rw [Nat.shiftRight_eq_div_pow]; omega
        have h5 : v + b.toNat * 2 ^ 63 < 2 ^ 64 := by omega
        rw [if_pos h5]
        have h6 : ((1 : Nat) &&& 0x7f) <<< 63 % 2 ^ 64 = 2 ^ 63 := by decide +kernel
        simp only [IntR.read, Bool.false_eq_true, if_false, h2, h4, h6]
        rw [if_neg (by simp), if_neg (by omega), if_neg (by omega), read_fin (by simp)]
        simp
    · have h3 : b.toNat = 0 := by omega
      rw [if_pos (by omega)]
      simp only [IntR.read, Bool.false_eq_true, if_false, h3]
      rw [if_neg (by simp), if_neg (by omega), if_neg (by simp; omega), read_fin (by simp)]
      simp

theorem read_iff {bs : Bytes} {v i n : Nat} {rest : Bytes} (hi : i ≤ 9) (hv : v < 2 ^ (7 * i) + 255) :
    (∃ r, IntR.read ⟨v, 7 * i, false⟩ bs = .done n r rest) ↔
      ∃ pre m, bs = pre ++ rest ∧ ContIs m pre ∧ n = v + m * 2 ^ (7 * i) ∧ n < 2 ^ 64 ∧ pre.length + i ≤ 10 := by
  induction bs generalizing v i with
  | nil =>
    constructor
    · rintro ⟨r, h⟩; simp [IntR.read] at h
    · rintro ⟨pre, m, h, hc, _⟩
      obtain ⟨rfl, -⟩ := List.append_eq_nil_iff.mp h.symm
      exact hc.elim
  | cons b bs ih =>
    have hb := b.toNat_lt
    by_cases h9 : i = 9
    · subst h9
      rw [read_last hv]
      constructor
      · rintro ⟨r, h⟩
        split at h
        · cases h
          exact ⟨[b], b.toNat, rfl, Or.inl ⟨by omega, rfl, rfl⟩, rfl, by assumption, by simp⟩
        · cases h
      · rintro ⟨pre, m, h, hc, h1, h2, h3⟩
        cases pre with
        | nil => exact hc.elim
        | cons x xs =>
          cases xs with
          | nil =>
            obtain ⟨rfl, rfl⟩ := List.cons.inj h
            rcases hc with ⟨_, _, rfl⟩ | ⟨_, _, hc, _⟩
            · exact ⟨_, by rw [if_pos (by omega), h1]⟩
            · exact hc.elim
          | cons => simp at h3
    · have hi' : i < 9 := by omega
      rw [read_step hi' hv]
      have hp : 2 ^ (7 * (i + 1)) = 128 * 2 ^ (7 * i) := by rw [show 7 * (i + 1) = 7 * i + 7 by ring, pow_add]; ring
      have hm : (b.toNat % 128) * 2 ^ (7 * i) ≤ 127 * 2 ^ (7 * i) := Nat.mul_le_mul (by omega) le_rfl
      have h56 : 2 ^ (7 * i) ≤ 2 ^ 56 := Nat.pow_le_pow_right (by omega) (by omega)
      by_cases hlt : b.toNat < 128
      · rw [read_fin (by simpa using hlt)]
        constructor
        · rintro ⟨r, h⟩
          cases h
          refine ⟨[b], b.toNat, rfl, Or.inl ⟨hlt, rfl, rfl⟩, ?_, ?_, by simp; omega⟩
          · simp only [Nat.mod_eq_of_lt hlt]
          · simp only; omega
        · rintro ⟨pre, m, h, hc, h1, h2, h3⟩
          cases pre with
          | nil => exact hc.elim
          | cons x xs =>
            obtain ⟨rfl, rfl⟩ := List.cons.inj h
            rcases hc with ⟨_, rfl, rfl⟩ | ⟨h, _⟩
            · refine ⟨⟨n, 7 * (i + 1), true⟩, ?_⟩
              rw [h1, Nat.mod_eq_of_lt hlt]; simp [hlt]
            · omega
      · rw [show decide (b.toNat < 128) = false by simpa using hlt, ih (by omega) (by rw [hp]; omega)]
        constructor
        · rintro ⟨pre, m, rfl, hc, h1, h2, h3⟩
          refine ⟨b :: pre, (b.toNat - 128) + 128 * m, rfl, Or.inr ⟨by omega, m, hc, rfl⟩, ?_, h2, by simp; omega⟩
          rw [h1, hp, show b.toNat % 128 = b.toNat - 128 by omega]
          ring
        · rintro ⟨pre, m, h, hc, h1, h2, h3⟩
          cases pre with
          | nil => exact hc.elim
          | cons x xs =>
            obtain ⟨rfl, rfl⟩ := List.cons.inj h
            rcases hc with ⟨h, _⟩ | ⟨_, m', hc, rfl⟩
            · omega
            · refine ⟨xs, m', rfl, hc, ?_, h2, by simp at h3; omega⟩
              rw [h1, hp, show b.toNat % 128 = b.toNat - 128 by omega]
              ring

/-- It makes no difference to a reader whether bytes come at once or in two pieces. -/
def Resumable {σ α : Type} (f : σ → Bytes → R σ α) : Prop :=
  ∀ s a b, f s (a ++ b) = (f s a).resume f b

theorem feed_eq {σ α : Type} {f : σ → Bytes → R σ α} (h : Resumable f) (s : σ) (cs : List Bytes) :
    feed f s cs = f s cs.flatten := by
  induction cs generalizing s with
  | nil => rfl
  | cons c cs ih =>
    rw [List.flatten_cons, h s c]
    simp only [feed]
    cases hf : f s c with
    | done v s' r => rfl
    | more s' => exact ih s'
    | fail e => rfl

theorem int_resumable : Resumable IntR.read := by
  intro s a b
  induction a generalizing s with
  | nil =>
    cases hs : s.fin
    · simp [IntR.read, hs, R.resume]
    · simp [read_fin hs, R.resume]
  | cons x xs ih =>
    cases hs : s.fin
    · simp only [List.cons_append, IntR.read, hs, Bool.false_eq_true, if_false]
      split
      · rfl
      · split
        · rfl
        · split
          · rfl
          · exact ih _
    · simp [read_fin hs, R.resume]

theorem read_fail {bs : Bytes} {v i : Nat} {e : Err} (hi : i ≤ 9) (hv : v < 2 ^ (7 * i) + 255)
    (h : IntR.read ⟨v, 7 * i, false⟩ bs = .fail e) : e = .integerOverflow := by
  induction bs generalizing v i with
  | nil => simp [IntR.read] at h
  | cons b bs ih =>
    by_cases h9 : i = 9
    · subst h9
      rw [read_last hv] at h
      split at h <;> cases h
      rfl
    · rw [read_step (by omega) hv] at h
      by_cases hlt : b.toNat < 128
      · rw [read_fin (by simpa using hlt)] at h; cases h
      · rw [show decide (b.toNat < 128) = false by simpa using hlt] at h
        have hp : 2 ^ (7 * (i + 1)) = 128 * 2 ^ (7 * i) := by
          rw [show 7 * (i + 1) = 7 * i + 7 by ring, pow_add]; ring
        have hm : (b.toNat % 128) * 2 ^ (7 * i) ≤ 127 * 2 ^ (7 * i) := Nat.mul_le_mul (by omega) le_rfl
        exact ih (by omega) (by rw [hp]; omega) h

theorem cont_ok {n v : Nat} (h : v < 128 ^ n) (hn : 0 < n) : ContIs v (contBytes n v) := by
  induction n generalizing v with
  | zero => omega
  | succ n ih =>
    unfold contBytes
    rw [Nat.shiftRight_eq_div_pow, and127]
    have hm : v % 128 < 128 := Nat.mod_lt _ (by omega)
    split
    · rename_i hgt
      have hor : v % 128 ||| 0x80 = v % 128 + 128 := by
        have := Nat.two_pow_add_eq_or_of_lt (i := 7) (b := v % 128) (by simpa using hm) 1
        rw [Nat.or_comm]; simp at this; omega
      have hlt : v / 2 ^ 7 < 128 ^ n := by
        rw [Nat.div_lt_iff_lt_mul (by omega)]; rw [pow_succ] at h; simpa using h
      have hn' : 0 < n := by
        rcases Nat.eq_zero_or_pos n with rfl | h0
        · simp at hlt hgt; omega
        · exact h0
      refine Or.inr ⟨?_, v / 2 ^ 7, ih hlt hn', ?_⟩
      · rw [hor, toNat_byte (by omega)]; omega
      · rw [hor, toNat_byte (by omega)]; omega
    · rename_i hgt
      have h1 : v < 128 := by omega
      refine Or.inl ⟨?_, rfl, ?_⟩
      · rw [toNat_byte (by omega)]; omega
      · rw [toNat_byte (by omega)]; omega

theorem cont_length (n v : Nat) : (contBytes n v).length ≤ n := by
  induction n generalizing v with
  | zero => simp [contBytes]
  | succ n ih =>
    unfold contBytes
    split
    · have := ih (v >>> 7); simp; omega
    · simp

/-- The bytes of a prefix. -/
structure Prefix.Ok (p : Prefix) : Prop where
  len_lt : p.len < 8
  pre_lt : p.pre < 256
  low : p.pre % 2 ^ (8 - p.len) = 0

theorem or_low {a k b : Nat} (h : a % 2 ^ k = 0) (hb : b < 2 ^ k) : a ||| b = a + b := by
  have := Nat.two_pow_add_eq_or_of_lt hb (a / 2 ^ k)
  have h2 : 2 ^ k * (a / 2 ^ k) = a := by have := Nat.div_add_mod a (2 ^ k); omega
  rw [h2] at this
  exact this.symm

theorem and_high : ∀ len < 8, ∀ a < 256, a % 2 ^ (8 - len) = 0 → a &&& (0xff - firstMax len) = a := by
  decide +kernel

theorem pow_le_256 {len : Nat} : 2 ^ (8 - len) ≤ 256 :=
  le_trans (Nat.pow_le_pow_right (by omega) (show 8 - len ≤ 8 by omega)) (by decide)

/-- A multiple of `2^k` below 256 leaves room for `k` bits. -/
theorem room : ∀ len < 8, ∀ a < 256, a % 2 ^ (8 - len) = 0 → a + (2 ^ (8 - len) - 1) < 256 := by
  decide +kernel

theorem encode_int_ok {p : Prefix} (hp : p.Ok) {v : Nat} (hv : v < 2 ^ 64) :
    IntIs p.len v (encodeInt p v) ∧ (encodeInt p v).length ≤ 11 ∧
    ∃ b bs, encodeInt p v = b :: bs ∧ topBits p.len b.toNat = topBits p.len p.pre ∧ p.pre ≤ b.toNat := by
  have hk : 0 < 2 ^ (8 - p.len) := Nat.pow_pos (by omega)
  have hr := room p.len hp.len_lt p.pre hp.pre_lt hp.low
  unfold encodeInt
  rw [and_high p.len hp.len_lt p.pre hp.pre_lt hp.low, firstMax_eq _ hp.len_lt]
  have aux : ∀ x < 2 ^ (8 - p.len), (p.pre + x) % 2 ^ (8 - p.len) = x ∧ topBits p.len (p.pre + x) = topBits p.len p.pre := by
    intro x hx
    have hd : 2 ^ (8 - p.len) * (p.pre / 2 ^ (8 - p.len)) = p.pre := by
      have := Nat.div_add_mod p.pre (2 ^ (8 - p.len)); rw [hp.low] at this; omega
    constructor
    · rw [Nat.add_mod, hp.low, Nat.zero_add, Nat.mod_mod, Nat.mod_eq_of_lt hx]
    · unfold topBits
      rw [← hd, Nat.mul_add_div hk, Nat.mul_div_cancel_left _ hk, Nat.div_eq_of_lt hx, Nat.add_zero]
  split
  · rename_i hlt
    rw [or_low hp.low (by omega)]
    have hb : (UInt8.ofNat (p.pre + v)).toNat = p.pre + v := toNat_byte (by omega)
    have ha := aux v (by omega)
    refine ⟨Or.inl ⟨?_, hlt, rfl⟩, by simp, _, _, rfl, ?_, by rw [hb]; omega⟩
    · rw [hb]; exact ha.1
    · rw [hb]; exact ha.2
  · rename_i hge
    rw [or_low hp.low (by omega)]
    have hb : (UInt8.ofNat (p.pre + (2 ^ (8 - p.len) - 1))).toNat = p.pre + (2 ^ (8 - p.len) - 1) :=
      toNat_byte (by omega)
    have ha := aux (2 ^ (8 - p.len) - 1) (by omega)
    refine ⟨Or.inr ⟨?_, v - (2 ^ (8 - p.len) - 1), cont_ok ?_ (by omega), ?_⟩, ?_, _, _, rfl, ?_, by rw [hb]; omega⟩
    · rw [hb]; exact ha.1
    · have : (128 : Nat) ^ 10 = 2 ^ 70 := by norm_num
      rw [this]
      have : (2 : Nat) ^ 64 ≤ 2 ^ 70 := Nat.pow_le_pow_right (by omega) (by omega)
      omega
    · omega
    · have := cont_length 10 (v - (2 ^ (8 - p.len) - 1)); simp; omega
    · rw [hb]; exact ha.2

/-- Reading, from the first byte. -/
theorem int_iff {b : UInt8} {bs rest : Bytes} {len n : Nat} (hl : len < 8) :
    (∃ r, (IntR.new b len).read bs = .done n r rest) ↔
      ∃ pre, bs = pre ++ rest ∧ IntIs len n (b :: pre) ∧ n < 2 ^ 64 ∧ pre.length ≤ 10 := by
  have hb := b.toNat_lt
  have hk : 0 < 2 ^ (8 - len) := Nat.pow_pos (by omega)
  have h256 := pow_le_256 (len := len)
  have hm : b.toNat % 2 ^ (8 - len) < 2 ^ (8 - len) := Nat.mod_lt _ hk
  unfold IntR.new
  rw [and_firstMax _ _ hl, firstMax_eq _ hl]
  by_cases hlt : b.toNat % 2 ^ (8 - len) < 2 ^ (8 - len) - 1
  · rw [read_fin (by simpa using hlt)]
    constructor
    · rintro ⟨r, h⟩
      cases h
      exact ⟨[], rfl, Or.inl ⟨rfl, hlt, rfl⟩, by simp only; omega, by simp⟩
    · rintro ⟨pre, rfl, hi, hn, hl⟩
      rcases hi with ⟨rfl, h1, rfl⟩ | ⟨h1, _⟩
      · exact ⟨_, rfl⟩
      · omega
  · rw [show decide (b.toNat % 2 ^ (8 - len) < 2 ^ (8 - len) - 1) = false by simpa using hlt]
    have := read_iff (bs := bs) (v := b.toNat % 2 ^ (8 - len)) (i := 0) (n := n) (rest := rest) (by omega) (by simp; omega)
    simp only [Nat.mul_zero, pow_zero, Nat.mul_one] at this
    rw [this]
    constructor
    · rintro ⟨pre, m, rfl, hc, rfl, h1, h2⟩
      exact ⟨pre, rfl, Or.inr ⟨by omega, m, hc, by omega⟩, h1, by omega⟩
    · rintro ⟨pre, rfl, hi, hn, hl⟩
      rcases hi with ⟨rfl, h1, rfl⟩ | ⟨h1, m, hc, rfl⟩
      · omega
      · exact ⟨pre, m, rfl, hc, by omega, hn, by omega⟩

theorem int_fail {b : UInt8} {bs : Bytes} {len : Nat} {e : Err} (hl : len < 8)
    (h : (IntR.new b len).read bs = .fail e) : e = .integerOverflow := by
  have hb := b.toNat_lt
  unfold IntR.new at h
  cases hf : decide (b.toNat &&& firstMax len < firstMax len)
  · rw [hf] at h
    refine read_fail (i := 0) (by omega) ?_ h
    rw [and_firstMax _ _ hl]
    have := Nat.mod_le b.toNat (2 ^ (8 - len))
    simp; omega
  · rw [hf, read_fin (by rfl)] at h; cases h

end Neqo.Qp
