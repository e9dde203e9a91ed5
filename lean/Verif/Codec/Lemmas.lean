import Verif.Codec.Model
import Mathlib.Tactic.Ring

/-! Helper lemmas for the codec model. -/
namespace Neqo.Codec

@[simp] theorem beBytes_length (n v : Nat) : (beBytes n v).length = n := by
  induction n with
  | zero => rfl
  | succ n ih => simp [beBytes, ih]

theorem beVal_lt (bs : Bytes) : beVal bs < 256 ^ bs.length := by
  induction bs with
  | nil => simp [beVal]
  | cons b bs ih =>
    simp only [beVal, List.length_cons, Nat.pow_succ]
    have := b.toNat_lt
    have h1 : (b.toNat + 1) * 256 ^ bs.length ≤ 256 * 256 ^ bs.length :=
      Nat.mul_le_mul_right _ (by omega)
    rw [Nat.add_mul] at h1
    omega

theorem beVal_append (a b : Bytes) : beVal (a ++ b) = beVal a * 256 ^ b.length + beVal b := by
  induction a with
  | nil => simp [beVal]
  | cons x a ih => simp only [List.cons_append, beVal, ih, List.length_append, Nat.pow_add]; ring

theorem beVal_beBytes (n v : Nat) : beVal (beBytes n v) = v % 256 ^ n := by
  induction n with
  | zero => simp [beBytes, beVal, Nat.mod_one]
  | succ n ih =>
    simp only [beBytes, beVal, beBytes_length, ih, UInt8.toNat_ofNat']
    rw [show 256 ^ (n + 1) = 256 ^ n * 256 from rfl, Nat.mod_mul, Nat.mul_comm,
      show (2:Nat) ^ 8 = 256 from rfl, Nat.add_comm]

theorem beVal_beBytes_of_lt {n v : Nat} (h : v < 256 ^ n) : beVal (beBytes n v) = v := by
  rw [beVal_beBytes, Nat.mod_eq_of_lt h]

theorem decodeN_beBytes {n : Nat} (h0 : 0 < n) (h8 : n ≤ 8) (v : Nat) (s : Bytes) :
    decodeN n (beBytes n v ++ s) = some (v % 256 ^ n, s) := by
  unfold decodeN
  rw [if_neg (by omega), if_neg (by simp)]
  have : n = (beBytes n v).length := by simp
  rw [List.take_left' (by simp), List.drop_left' (by simp), beVal_beBytes]

theorem decodeN_one_cons (b : UInt8) (s : Bytes) : decodeN 1 (b :: s) = some (b.toNat, s) := by
  simp [decodeN, beVal]

theorem decodeN_some {n : Nat} {d r : Bytes} {x : Nat} :
    decodeN n d = some (x, r) ↔
      (0 < n ∧ n ≤ 8 ∧ n ≤ d.length ∧ x = beVal (d.take n) ∧ r = d.drop n) := by
  unfold decodeN
  split
  · constructor
    · intro h; cases h
    · omega
  · split
    · constructor
      · intro h; cases h
      · omega
    · constructor
      · intro h; cases h; exact ⟨by omega, by omega, by omega, rfl, rfl⟩
      · rintro ⟨_, _, _, rfl, rfl⟩; rfl

theorem and_3f (x : Nat) : x &&& 0x3f = x % 64 := by
  have := Nat.and_two_pow_sub_one_eq_mod x 6
  simpa using this

theorem shl_or {a b : Nat} (n : Nat) (h : b < 2 ^ n) : (a <<< n) ||| b = a * 2 ^ n + b := by
  rw [Nat.shiftLeft_eq, Nat.mul_comm, ← Nat.two_pow_add_eq_or_of_lt h]

theorem or_shl {a b : Nat} (n : Nat) (h : b < 2 ^ n) : b ||| (a <<< n) = a * 2 ^ n + b := by
  rw [Nat.or_comm, shl_or n h]

/-- First byte announces `c`, `n` more bytes follow. -/
theorem decodeVarint_cons (b : UInt8) (s : Bytes) :
    decodeVarint (b :: s) =
      (if b.toNat / 64 = 0 then some (b.toNat, s)
       else if b.toNat / 64 = 1 then
        (if s.length < 1 then none else some ((b.toNat % 64) * 256 ^ 1 + beVal (s.take 1), s.drop 1))
       else if b.toNat / 64 = 2 then
        (if s.length < 3 then none else some ((b.toNat % 64) * 256 ^ 3 + beVal (s.take 3), s.drop 3))
       else
        (if s.length < 7 then none else some ((b.toNat % 64) * 256 ^ 7 + beVal (s.take 7), s.drop 7))) := by
  have hb := b.toNat_lt
  unfold decodeVarint
  rw [decodeN_one_cons]
  simp only [Nat.shiftRight_eq_div_pow]
  have hcases : b.toNat / 64 = 0 ∨ b.toNat / 64 = 1 ∨ b.toNat / 64 = 2 ∨ b.toNat / 64 = 3 := by omega
  have key : ∀ n, s.length ≥ n → n ≤ 8 → beVal (s.take n) < 2 ^ (8 * n) := by
    intro n hn _
    have := beVal_lt (s.take n)
    rw [List.length_take, Nat.min_eq_left hn] at this
    rw [Nat.pow_mul]; exact this
  rcases hcases with h | h | h | h <;> simp only [show (2:Nat)^6 = 64 from rfl, h]
  · simp
  · simp only [decodeN]
    by_cases hl : s.length < 1
    · simp [hl]
    · have hk := key 1 (by omega) (by omega)
      simp [hl, and_3f, shl_or 8 hk]
  · simp only [decodeN]
    by_cases hl : s.length < 3
    · simp [hl]
    · have hk := key 3 (by omega) (by omega)
      simp [hl, and_3f, shl_or 24 hk]
  · simp only [decodeN]
    by_cases hl : s.length < 7
    · simp [hl]
    · have hk := key 7 (by omega) (by omega)
      simp [hl, and_3f, shl_or 56 hk]

theorem take_beBytes_append (n v : Nat) (s : Bytes) : (beBytes n v ++ s).take n = beBytes n v :=
  List.take_left' (by simp)
theorem drop_beBytes_append (n v : Nat) (s : Bytes) : (beBytes n v ++ s).drop n = s :=
  List.drop_left' (by simp)

theorem encodeVarint_decode {v : Nat} (hv : v < 2 ^ 62) :
    ∃ e, encodeVarint v = some e ∧ ∀ s, decodeVarint (e ++ s) = some (v, s) := by
  unfold encodeVarint
  simp only [Nat.shiftLeft_eq, Nat.one_mul]
  split
  · refine ⟨_, rfl, fun s => ?_⟩
    simp only [beBytes, List.cons_append, List.nil_append]
    rw [decodeVarint_cons]
    have e1 : (UInt8.ofNat (v / 256 ^ 0)).toNat = v := by
      rw [UInt8.toNat_ofNat']; omega
    rw [e1, if_pos (by omega)]
  · split
    · refine ⟨_, rfl, fun s => ?_⟩
      have h14 : v ||| 2 ^ 14 = 2 ^ 14 + v := by
        have := or_shl (a := 1) 14 (b := v) (by assumption)
        simpa using this
      rw [h14, beBytes, List.cons_append, decodeVarint_cons]
      have e1 : (UInt8.ofNat ((2 ^ 14 + v) / 256 ^ 1)).toNat = 64 + v / 256 := by
        rw [UInt8.toNat_ofNat']; omega
      rw [e1, if_neg (by omega), if_pos (by omega), if_neg (by simp), take_beBytes_append,
        drop_beBytes_append, beVal_beBytes]
      congr 2; omega
    · split
      · refine ⟨_, rfl, fun s => ?_⟩
        have h14 : v ||| 2 * 2 ^ 30 = 2 ^ 31 + v := by
          have := or_shl (a := 2) 30 (b := v) (by assumption)
          simpa using this
        rw [h14, beBytes, List.cons_append, decodeVarint_cons]
        have e1 : (UInt8.ofNat ((2 ^ 31 + v) / 256 ^ 3)).toNat = 128 + v / 2 ^ 24 := by
          rw [UInt8.toNat_ofNat']; omega
        rw [e1, if_neg (by omega), if_neg (by omega), if_pos (by omega), if_neg (by simp),
          take_beBytes_append, drop_beBytes_append, beVal_beBytes]
        congr 2; omega
      · refine ⟨_, rfl, fun s => ?_⟩
        have h14 : v ||| 3 * 2 ^ 62 = 3 * 2 ^ 62 + v := by
          have := or_shl (a := 3) 62 (b := v) (by assumption)
          simpa using this
        rw [h14, beBytes, List.cons_append, decodeVarint_cons]
        have e1 : (UInt8.ofNat ((3 * 2 ^ 62 + v) / 256 ^ 7)).toNat = 192 + v / 2 ^ 56 := by
          rw [UInt8.toNat_ofNat']; omega
        rw [e1, if_neg (by omega), if_neg (by omega), if_neg (by omega), if_neg (by simp),
          take_beBytes_append, drop_beBytes_append, beVal_beBytes]
        congr 2; omega

theorem encodeVarint_length (v : Nat) : (encodeVarint v).map List.length = varintLen v := by
  unfold encodeVarint varintLen
  repeat' split
  all_goals simp

end Neqo.Codec
