import Verif.Lib.Err
import Mathlib.Tactic.ByContra

/-!
Packet number truncation: how many bytes of a packet number the sender writes, and how the
receiver recovers the number.

Packet numbers are below `2 ^ 62` in the protocol, so none of the sums below can wrap in the
64-bit arithmetic of the code; they are natural numbers here.
-/

namespace Neqo.Keys

/-- `u64::leading_zeros`. -/
def leadingZeros (n : Nat) : Nat := if n = 0 then 64 else 63 - Nat.log2 n

/-- The range of numbers the peer may still be missing
(neqo-transport/src/connection/mod.rs:2369). -/
def unackedRange (la : Option Nat) (pn : Nat) : Nat :=
  match la with
  | none => pn + 1
  | some a => (pn - a) * 2

/-- The number of bytes the connection asks for (connection/mod.rs:2372), capped by the packet
builder (neqo-transport/src/packet/mod.rs:412, `MAX_PACKET_NUMBER_LEN = 4`). -/
def pnLen (la : Option Nat) (pn : Nat) : Nat :=
  min 4 (8 - leadingZeros (unackedRange la pn) / 8)

/-- What goes on the wire: the low `w` bytes (packet/mod.rs:416, `Encoder::encode_uint`
neqo-common/src/codec.rs:289-296). -/
def truncate (pn w : Nat) : Nat := pn % 256 ^ w

/-- `Public::decode_pn` (packet/mod.rs:858-871).  The truncated number is below the window, so the
bitwise `(expected & !(window - 1)) | pn` is written as a sum. -/
def decodePn (expected t w : Nat) : Nat :=
  let window := 256 ^ w
  let candidate := expected / window * window + t
  if candidate + window / 2 ≤ expected then candidate + window
  else if candidate > expected + window / 2 then
    if window ≤ candidate then candidate - window else candidate
  else candidate

/-! ### Facts -/

theorem decodePn_near {e pn w : Nat} (h1 : e < pn + 256 ^ w / 2) (h2 : pn ≤ e + 256 ^ w / 2)
    (hw : 0 < w) : decodePn e (truncate pn w) w = pn := by
  have hpos : 0 < 256 ^ w := Nat.pow_pos (by decide)
  have heven : 2 * (256 ^ w / 2) = 256 ^ w := by
    obtain ⟨v, rfl⟩ : ∃ v, w = v + 1 := ⟨w - 1, by omega⟩
    rw [Nat.pow_succ]; omega
  unfold decodePn truncate
  simp only
  generalize 256 ^ w = W at *
  have he := Nat.div_add_mod e W
  have hp := Nat.div_add_mod pn W
  have hem := Nat.mod_lt e hpos
  have hpm := Nat.mod_lt pn hpos
  generalize e / W = E at *
  generalize e % W = r at *
  generalize pn / W = k at *
  generalize pn % W = t at *
  have k1 : E ≤ k + 1 := by
    by_contra hc
    have : W * (k + 2) ≤ W * E := Nat.mul_le_mul_left W (by omega)
    rw [Nat.mul_add] at this
    omega
  have k2 : k ≤ E + 1 := by
    by_contra hc
    have : W * (E + 2) ≤ W * k := Nat.mul_le_mul_left W (by omega)
    rw [Nat.mul_add] at this
    omega
  have hc : E = k + 1 ∨ E = k ∨ k = E + 1 := by omega
  rw [Nat.mul_comm E W]
  rcases hc with h | h | h
  · subst h
    rw [Nat.mul_add] at *
    simp only [Nat.mul_one] at *
    generalize W * k = K at *
    rw [if_neg (by omega)]
    by_cases hb : K + W + t > e + W / 2
    · rw [if_pos hb, if_pos (by omega)]; omega
    · rw [if_neg hb]; omega
  · subst h
    generalize W * E = K at *
    rw [if_neg (by omega), if_neg (by omega)]; omega
  · subst h
    rw [Nat.mul_add] at *
    simp only [Nat.mul_one] at *
    generalize W * E = K at *
    rw [if_pos (by omega)]; omega

/-- Numbers below the window size are also recovered when nothing much is expected yet. -/
theorem decodePn_small {e pn w : Nat} (h1 : e < pn + 256 ^ w / 2) (h2 : pn < 256 ^ w)
    (hw : 0 < w) : decodePn e (truncate pn w) w = pn := by
  by_cases h3 : pn ≤ e + 256 ^ w / 2
  · exact decodePn_near h1 h3 hw
  · have he : e < 256 ^ w := by omega
    unfold decodePn truncate
    simp only
    rw [Nat.div_eq_of_lt he, Nat.mod_eq_of_lt h2]
    simp only [Nat.zero_mul, Nat.zero_add]
    rw [if_neg (by omega), if_pos (by omega), if_neg (by omega)]

/-- The byte count leaves room for the range. -/
theorem lt_pow_bytes {n : Nat} (h0 : n ≠ 0) (h : n < 2 ^ 32) :
    n < 256 ^ min 4 (8 - leadingZeros n / 8) ∧ 0 < min 4 (8 - leadingZeros n / 8) := by
  have h1 : n < 2 ^ (Nat.log2 n + 1) := Nat.lt_log2_self
  have h2 : Nat.log2 n < 32 := (Nat.log2_lt h0).mpr h
  unfold leadingZeros
  rw [if_neg h0]
  have hb : min 4 (8 - (63 - Nat.log2 n) / 8) = Nat.log2 n / 8 + 1 := by omega
  rw [hb]
  refine ⟨Nat.lt_of_lt_of_le h1 ?_, by omega⟩
  rw [show (256 : Nat) = 2 ^ 8 from rfl, ← Nat.pow_mul]
  exact Nat.pow_le_pow_right (by decide) (by omega)

end Neqo.Keys
