import Verif.Codec.Model

/-!
# Bytes as hexadecimal text: C124

Connection IDs, tokens and packets are printed in hexadecimal, through a buffer of fixed size whose bytes
are taken as UTF-8 without a check. Accesses beyond the buffer or the table, which would panic, are `none`.
-/
namespace Neqo.Hex
open Neqo.Codec

/-! ## The model -/

/-- `HEX` (neqo-common/src/hex.rs:80). -/
def table : Bytes := [48, 49, 50, 51, 52, 53, 54, 55, 56, 57, 97, 98, 99, 100, 101, 102]

/-- `CHUNK_SIZE` (neqo-common/src/hex.rs:81). -/
def chunkSize : Nat := 128

/-- `chunk[i] = v`. -/
def put (chunk : Bytes) (i : Nat) (v : UInt8) : Option Bytes :=
  if i < chunk.length then some (chunk.set i v) else none

/-- The inner loop of `chunk_hex` (neqo-common/src/hex.rs:79-92), from position `i`. -/
def fill (chunk : Bytes) (i : Nat) : Bytes → Option Bytes
  | [] => some chunk
  | b :: bs => do
    let h ← table[(b >>> 4).toNat]?
    let chunk ← put chunk (i * 2) h
    let l ← table[(b &&& 0xf).toNat]?
    let chunk ← put chunk (i * 2 + 1) l
    fill chunk (i + 1) bs

/-- `chunk[..n]`. -/
def upTo (chunk : Bytes) (n : Nat) : Option Bytes := if n ≤ chunk.length then some (chunk.take n) else none

/-- `chunk[n..]`. -/
def startingAt (chunk : Bytes) (n : Nat) : Option Bytes := if n ≤ chunk.length then some (chunk.drop n) else none

/-- `chunk_hex` (neqo-common/src/hex.rs:79-92): the pieces that are written. The buffer is not cleared between
the pieces. -/
def pieces (chunk v : Bytes) : Option (List Bytes) :=
  if h : v = [] then some []
  else do
    let slice := v.take chunkSize
    let chunk ← fill chunk 0 slice
    let s ← upTo chunk (slice.length * 2)
    let rest ← pieces chunk (v.drop chunkSize)
    return s :: rest
termination_by v.length
decreasing_by
  have := List.length_pos_iff.mpr h
  simp [chunkSize]
  omega

/-- The text that `chunk_hex` and `Hex` write (neqo-common/src/hex.rs:79-102). -/
def hex (v : Bytes) : Option Bytes := (pieces (List.replicate (chunkSize * 2) 0) v).map List.flatten

/-- A length in decimal and in brackets, and a colon if it is not zero (neqo-common/src/hex.rs:110-113, 132-135). -/
def lenPrefix (n : Nat) : Bytes :=
  [91] ++ (toString n).toList.map (fun c => c.toNat.toUInt8) ++ [93] ++ if n = 0 then [] else [58, 32]

/-- `HexWithLen` (neqo-common/src/hex.rs:130-137). -/
def withLen (v : Bytes) : Option Bytes := do
  let t ← hex v
  return lenPrefix v.length ++ t

/-- `HexSnipMiddle` (neqo-common/src/hex.rs:107-121). -/
def snipMiddle (v : Bytes) : Option Bytes := do
  let first := min v.length 8
  let a ← upTo v first
  let s ← hex a
  let last := max (v.length - 8) first
  let b ← startingAt v last
  let t ← hex b
  return lenPrefix v.length ++ s ++ (if last > first then [46, 46] else []) ++ t

/-! ## The specification -/

/-- `c` is the hexadecimal digit, in lower case, of the value `v`. -/
def Digit (c : UInt8) (v : Nat) : Prop :=
  (v < 10 ∧ c.toNat = '0'.toNat + v) ∨ (10 ≤ v ∧ v < 16 ∧ c.toNat = 'a'.toNat + (v - 10))

/-- Two digits for each byte. -/
inductive IsHex : Bytes → Bytes → Prop
  | nil : IsHex [] []
  | cons {b h l : UInt8} {bs t : Bytes} : Digit h (b.toNat / 16) → Digit l (b.toNat % 16) → IsHex bs t →
      IsHex (b :: bs) (h :: l :: t)

/-! ## Lemmas -/

theorem table_digit : ∀ n : Fin 16, ((table[n.val]?).any fun c => decide (
    (n.val < 10 ∧ c.toNat = '0'.toNat + n.val) ∨ (10 ≤ n.val ∧ n.val < 16 ∧ c.toNat = 'a'.toNat + (n.val - 10)))) = true := by
  decide +kernel

theorem table_at {n : Nat} (h : n < 16) : ∃ c, table[n]? = some c ∧ Digit c n := by
  have := table_digit ⟨n, h⟩
  obtain ⟨c, h1, h2⟩ := (Option.any_eq_true _ _).mp this
  refine ⟨c, h1, ?_⟩
  unfold Digit
  exact of_decide_eq_true h2

theorem high (b : UInt8) : (b >>> 4).toNat = b.toNat / 16 := by
  rw [UInt8.toNat_shiftRight, Nat.shiftRight_eq_div_pow]
  rfl

theorem low (b : UInt8) : (b &&& 0xf).toNat = b.toNat % 16 := by
  rw [UInt8.toNat_and]
  exact Nat.and_two_pow_sub_one_eq_mod b.toNat 4

theorem put_ok {chunk : Bytes} {i : Nat} {v : UInt8} (h : i < chunk.length) : put chunk i v = some (chunk.set i v) :=
  if_pos h

theorem IsHex.append {a b s t : Bytes} (h1 : IsHex a s) (h2 : IsHex b t) : IsHex (a ++ b) (s ++ t) := by
  induction h1 with
  | nil => exact h2
  | cons d1 d2 _ ih => exact .cons d1 d2 ih

theorem IsHex.length {a s : Bytes} (h : IsHex a s) : s.length = 2 * a.length := by
  induction h with
  | nil => rfl
  | cons _ _ _ ih => simp only [List.length_cons, ih]; omega

theorem fill_ok {bs : Bytes} : ∀ {chunk : Bytes} {i : Nat}, (i + bs.length) * 2 ≤ chunk.length →
    ∃ c, fill chunk i bs = some c ∧ c.length = chunk.length ∧ c.take (i * 2) = chunk.take (i * 2) ∧
      IsHex bs ((c.drop (i * 2)).take (bs.length * 2)) := by
  induction bs with
  | nil => intro chunk i _; exact ⟨chunk, rfl, rfl, rfl, by simpa using IsHex.nil⟩
  | cons b bs ih =>
    intro chunk i hl
    rw [List.length_cons] at hl
    have hb : b.toNat < 256 := b.toNat_lt
    obtain ⟨h, h1, h2⟩ := table_at (n := b.toNat / 16) (by omega)
    obtain ⟨l, l1, l2⟩ := table_at (n := b.toNat % 16) (by omega)
    obtain ⟨c, g1, g2, g3, g4⟩ := ih (chunk := (chunk.set (i * 2) h).set (i * 2 + 1) l) (i := i + 1) (by
      simp only [List.length_set]; omega)
    simp only [List.length_set] at g2
    refine ⟨c, ?_, g2, ?_, ?_⟩
    · unfold fill
      rw [high, low, h1, l1]
      simp only [bind, Option.bind]
      rw [put_ok (by omega)]
      dsimp only
      rw [put_ok (by rw [List.length_set]; omega)]
      exact g1
    · have := congrArg (List.take (i * 2)) g3
      rw [List.take_take, List.take_take, show min (i * 2) ((i + 1) * 2) = i * 2 by omega] at this
      rw [this, List.take_set_of_le (by omega), List.take_set_of_le (by omega)]
    · have at_ : ∀ j, j < (i + 1) * 2 → c[j]? = ((chunk.set (i * 2) h).set (i * 2 + 1) l)[j]? := by
        intro j hj
        have := congrArg (fun x => x[j]?) g3
        simpa only [List.getElem?_take, if_pos hj] using this
      have e1 : c[i * 2]? = some h := by
        rw [at_ _ (by omega), List.getElem?_set_ne (by omega), List.getElem?_set_self (by omega)]
      have e2 : c[i * 2 + 1]? = some l := by
        rw [at_ _ (by omega), List.getElem?_set_self (by rw [List.length_set]; omega)]
      have f1 : c.drop (i * 2) = h :: l :: c.drop ((i + 1) * 2) := by
        obtain ⟨k1, k2⟩ := List.getElem?_eq_some_iff.mp e1
        obtain ⟨k3, k4⟩ := List.getElem?_eq_some_iff.mp e2
        rw [List.drop_eq_getElem_cons k1, List.drop_eq_getElem_cons k3, k2, k4, show i * 2 + 1 + 1 = (i + 1) * 2 by omega]
      rw [f1, List.length_cons, show (bs.length + 1) * 2 = bs.length * 2 + 1 + 1 by omega, List.take_succ_cons,
        List.take_succ_cons]
      exact .cons h2 l2 g4

theorem pieces_ok {v : Bytes} : ∀ {chunk : Bytes}, chunk.length = chunkSize * 2 →
    ∃ ps, pieces chunk v = some ps ∧ IsHex v ps.flatten := by
  induction hn : v.length using Nat.strongRecOn generalizing v with
  | ind n ih =>
    intro chunk hc
    unfold pieces
    split
    · rename_i h
      rw [h]
      exact ⟨[], rfl, .nil⟩
    · rename_i h
      have hp := List.length_pos_iff.mpr h
      have hz : chunkSize = 128 := rfl
      obtain ⟨c, g1, g2, -, g4⟩ := fill_ok (bs := v.take chunkSize) (chunk := chunk) (i := 0) (by
        rw [List.length_take, hc]; omega)
      obtain ⟨ps, k1, k2⟩ := ih (v.drop chunkSize).length (by rw [List.length_drop]; omega) rfl (chunk := c)
        (by rw [g2, hc])
      refine ⟨c.take ((v.take chunkSize).length * 2) :: ps, ?_, ?_⟩
      · simp only [bind, Option.bind, g1]
        unfold upTo
        rw [if_pos (by rw [g2, hc, List.length_take]; omega)]
        dsimp only
        rw [k1]
        rfl
      · rw [List.flatten_cons]
        conv => arg 1; rw [← List.take_append_drop chunkSize v]
        rw [Nat.zero_mul, List.drop_zero] at g4
        exact g4.append k2

theorem digit_inj {c : UInt8} {v w : Nat} (h1 : Digit c v) (h2 : Digit c w) : v = w := by
  have a : '0'.toNat = 48 := rfl
  have b : 'a'.toNat = 97 := rfl
  unfold Digit at h1 h2
  omega

theorem IsHex.inj {a b s : Bytes} (h1 : IsHex a s) (h2 : IsHex b s) : a = b := by
  induction h1 generalizing b with
  | nil => cases h2; rfl
  | @cons x h l xs t d1 d2 _ ih =>
    cases h2 with
    | @cons y _ _ ys _ e1 e2 h3 =>
      have p := digit_inj d1 e1
      have q := digit_inj d2 e2
      rw [ih h3, UInt8.toNat_inj.mp (show x.toNat = y.toNat by omega)]

theorem digit_det {c d : UInt8} {v : Nat} (h1 : Digit c v) (h2 : Digit d v) : c = d := by
  unfold Digit at h1 h2
  exact UInt8.toNat_inj.mp (by omega)

theorem IsHex.det {a s t : Bytes} (h1 : IsHex a s) (h2 : IsHex a t) : s = t := by
  induction h1 generalizing t with
  | nil => cases h2; rfl
  | cons d1 d2 _ ih =>
    cases h2 with
    | cons e1 e2 h3 => rw [digit_det d1 e1, digit_det d2 e2, ih h3]

/-! ## C124 -/

/-- Every sequence of bytes is written as two digits for each byte, in order, without a panic. -/
theorem C124_digits (v : Bytes) : ∃ t, hex v = some t ∧ IsHex v t := by
  obtain ⟨ps, h1, h2⟩ := pieces_ok (v := v) (chunk := List.replicate (chunkSize * 2) 0) List.length_replicate
  exact ⟨ps.flatten, by unfold hex; rw [h1]; rfl, h2⟩

/-- Each piece that is taken as UTF-8 without a check consists of digits and letters from `a` to `f`, all of
which are ASCII characters. -/
theorem C124_ascii {v : Bytes} {ps : List Bytes} (h : pieces (List.replicate (chunkSize * 2) 0) v = some ps) :
    ∀ s ∈ ps, ∀ c ∈ s, ('0'.toNat ≤ c.toNat ∧ c.toNat ≤ '9'.toNat) ∨ ('a'.toNat ≤ c.toNat ∧ c.toNat ≤ 'f'.toNat) := by
  obtain ⟨ps', h1, h2⟩ := pieces_ok (v := v) (chunk := List.replicate (chunkSize * 2) 0) List.length_replicate
  rw [h] at h1
  cases h1
  intro s hs c hc
  have key : ∀ {a t : Bytes}, IsHex a t → ∀ c ∈ t, ('0'.toNat ≤ c.toNat ∧ c.toNat ≤ '9'.toNat) ∨
      ('a'.toNat ≤ c.toNat ∧ c.toNat ≤ 'f'.toNat) := by
    have e0 : '0'.toNat = 48 := rfl
    have e9 : '9'.toNat = 57 := rfl
    have ea : 'a'.toNat = 97 := rfl
    have ef : 'f'.toNat = 102 := rfl
    intro a t h
    induction h with
    | nil => intro c hc; cases hc
    | cons d1 d2 _ ih =>
      intro c hc
      rcases List.mem_cons.mp hc with rfl | hc
      · unfold Digit at d1; omega
      · rcases List.mem_cons.mp hc with rfl | hc
        · unfold Digit at d2; omega
        · exact ih c hc
  exact key h2 c (List.mem_flatten.mpr ⟨s, hs, hc⟩)

/-- Different bytes have different texts. -/
theorem C124_injective {v w : Bytes} (h : hex v = hex w) : v = w := by
  obtain ⟨t, h1, h2⟩ := C124_digits v
  obtain ⟨u, h3, h4⟩ := C124_digits w
  rw [h1, h3] at h
  cases h
  exact h2.inj h4

/-- The text of a length: in brackets, with a colon and a space if there are bytes to follow. -/
theorem C124_length (n : Nat) :
    lenPrefix n = (if n = 0 then "[0]" else "[" ++ toString n ++ "]: ").toList.map (fun c => c.toNat.toUInt8) := by
  unfold lenPrefix
  split
  · rename_i h
    subst h
    decide +kernel
  · rw [String.toList_append, String.toList_append, List.map_append, List.map_append]
    simp only [List.append_assoc]
    rfl

/-- With the length, the text is the length and all digits. -/
theorem C124_with_len (v : Bytes) : ∃ t, withLen v = some (lenPrefix v.length ++ t) ∧ IsHex v t := by
  obtain ⟨t, h1, h2⟩ := C124_digits v
  exact ⟨t, by unfold withLen; rw [h1]; rfl, h2⟩

/-- The text that leaves out the middle is, for at most 16 bytes, the length and all digits, and otherwise the
length, the digits of the first eight bytes, two dots and the digits of the last eight. There is no panic. -/
theorem C124_snipped (v : Bytes) :
    (v.length ≤ 16 → ∃ t, IsHex v t ∧ snipMiddle v = some (lenPrefix v.length ++ t)) ∧
    (16 < v.length → ∃ a m b s t, v = a ++ m ++ b ∧ a.length = 8 ∧ b.length = 8 ∧ IsHex a s ∧ IsHex b t ∧
      snipMiddle v = some (lenPrefix v.length ++ s ++ ['.'.toNat.toUInt8, '.'.toNat.toUInt8] ++ t)) := by
  have hu : upTo v (min v.length 8) = some (v.take (min v.length 8)) := if_pos (by omega)
  have hs : startingAt v (max (v.length - 8) (min v.length 8)) = some (v.drop (max (v.length - 8) (min v.length 8))) :=
    if_pos (by omega)
  obtain ⟨s, s1, s2⟩ := C124_digits (v.take (min v.length 8))
  obtain ⟨t, t1, t2⟩ := C124_digits (v.drop (max (v.length - 8) (min v.length 8)))
  have e : snipMiddle v = some (lenPrefix v.length ++ s ++
      (if max (v.length - 8) (min v.length 8) > min v.length 8 then [46, 46] else []) ++ t) := by
    unfold snipMiddle
    simp only [bind, Option.bind, hu, s1, hs, t1]
    rfl
  constructor
  · intro hl
    refine ⟨s ++ t, ?_, ?_⟩
    · have := s2.append t2
      rw [show max (v.length - 8) (min v.length 8) = min v.length 8 by omega, List.take_append_drop] at this
      exact this
    · rw [e, if_neg (by omega), List.append_nil, List.append_assoc]
  · intro hl
    refine ⟨v.take 8, (v.drop 8).take (v.length - 16), v.drop (v.length - 8), s, t, ?_, ?_, ?_, ?_, ?_, ?_⟩
    · have h1 : v.drop (v.length - 8) = (v.drop 8).drop (v.length - 16) := by
        rw [List.drop_drop]; congr 1; omega
      rw [h1, List.append_assoc, List.take_append_drop, List.take_append_drop]
    · rw [List.length_take]; omega
    · rw [List.length_drop]; omega
    · rw [show min v.length 8 = 8 by omega] at s2; exact s2
    · rw [show max (v.length - 8) (min v.length 8) = v.length - 8 by omega] at t2; exact t2
    · rw [e, if_pos (by omega)]; rfl

/-! ### Examples -/

example : hex [0xab, 0x0d] = some ("ab0d".toList.map (fun c => c.toNat.toUInt8)) := by decide +kernel
example : IsHex [0xab] [97, 98] := .cons (.inr (by decide)) (.inr (by decide)) .nil
example : (hex (List.replicate 300 0x7f)).map List.length = some 600 := by
  obtain ⟨t, h1, h2⟩ := C124_digits (List.replicate 300 0x7f)
  rw [h1, Option.map_some, h2.length, List.length_replicate]
example : withLen [1, 2, 3] = some ("[3]: 010203".toList.map (fun c => c.toNat.toUInt8)) := by decide +kernel
example : withLen [] = some ("[0]".toList.map (fun c => c.toNat.toUInt8)) := by decide +kernel
example : snipMiddle (List.replicate 20 0) =
    some ("[20]: 0000000000000000..0000000000000000".toList.map (fun c => c.toNat.toUInt8)) := by decide +kernel

end Neqo.Hex
