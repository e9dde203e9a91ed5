import Verif.Codec.Lemmas
import Mathlib.Tactic.NormNum

/-!
# Properties of the codec: C01 – C04

The specification side is `announcedLen` (how many bytes a varint occupies,
from its first byte, RFC 9000 §16) and plain list concatenation.
-/
namespace Neqo.Codec

/-! ## C01 -/

/-- C01: encode then decode, with anything following. -/
theorem C01_varint_roundtrip (v : Nat) (hv : v < 2 ^ 62) :
    ∃ e, encodeVarint v = some e ∧ ∀ s, decodeVarint (e ++ s) = some (v, s) :=
  encodeVarint_decode hv

/-- C01: values that do not fit are refused. -/
theorem C01_varint_too_large (v : Nat) (hv : 2 ^ 62 ≤ v) : encodeVarint v = none := by
  unfold encodeVarint
  simp only [Nat.shiftLeft_eq]
  rw [if_neg (by omega), if_neg (by omega), if_neg (by omega), if_neg (by omega)]

example : encodeVarint (2 ^ 30) = some [0xc0, 0, 0, 0, 0x40, 0, 0, 0] := by decide +kernel

/-! ## C02 -/

/-- Specification: length of a varint from the two top bits of its first byte. -/
def announcedLen (b : UInt8) : Nat := 2 ^ (b.toNat / 64)

/-- C02: decoding an empty buffer fails. -/
theorem C02_decode_nil : decodeVarint [] = none := by decide

theorem decodeVarint_announced (b : UInt8) (s : Bytes) :
    decodeVarint (b :: s) =
      if (b :: s).length < announcedLen b then none
      else some (beVal ((b :: s).take (announcedLen b)) % 2 ^ (8 * announcedLen b - 2),
                 (b :: s).drop (announcedLen b)) := by
  have hb := b.toNat_lt
  rw [decodeVarint_cons]
  unfold announcedLen
  have key : ∀ n, n ≤ s.length → beVal (s.take n) < 256 ^ n ∧
      beVal ((b :: s).take (n + 1)) = b.toNat * 256 ^ n + beVal (s.take n) := by
    intro n hn
    have := beVal_lt (s.take n)
    rw [List.length_take, Nat.min_eq_left hn] at this
    refine ⟨this, ?_⟩
    rw [List.take_succ_cons, beVal, List.length_take, Nat.min_eq_left hn]
  have hcases : b.toNat / 64 = 0 ∨ b.toNat / 64 = 1 ∨ b.toNat / 64 = 2 ∨ b.toNat / 64 = 3 := by omega
  have hlen : (b :: s).length = s.length + 1 := rfl
  rcases hcases with h | h | h | h <;> rw [h]
  · rw [if_pos rfl, if_neg (by rw [hlen]; omega)]
    have := key 0 (by omega)
    rw [show 2 ^ 0 = 0 + 1 from rfl, this.2, List.drop_succ_cons]
    simp [beVal]; omega
  · rw [if_neg (by decide), if_pos rfl]
    by_cases hl : s.length < 1
    · rw [if_pos hl, if_pos (by rw [hlen]; omega)]
    · have := key 1 (by omega)
      rw [if_neg hl, if_neg (by rw [hlen]; omega), show 2 ^ 1 = 1 + 1 from rfl, this.2,
        List.drop_succ_cons]
      congr 2; omega
  · rw [if_neg (by decide), if_neg (by decide), if_pos rfl]
    by_cases hl : s.length < 3
    · rw [if_pos hl, if_pos (by rw [hlen]; omega)]
    · have := key 3 (by omega)
      rw [if_neg hl, if_neg (by rw [hlen]; omega), show 2 ^ 2 = 3 + 1 from rfl, this.2,
        List.drop_succ_cons]
      congr 2; omega
  · rw [if_neg (by decide), if_neg (by decide), if_neg (by decide)]
    by_cases hl : s.length < 7
    · rw [if_pos hl, if_pos (by rw [hlen]; omega)]
    · have := key 7 (by omega)
      rw [if_neg hl, if_neg (by rw [hlen]; omega), show 2 ^ 3 = 7 + 1 from rfl, this.2,
        List.drop_succ_cons]
      congr 2; omega

/-- C02: decoding fails exactly when the input is shorter than announced. -/
theorem C02_decode_fails_iff (b : UInt8) (s : Bytes) :
    decodeVarint (b :: s) = none ↔ (b :: s).length < announcedLen b := by
  rw [decodeVarint_announced]
  split
  · exact ⟨fun _ => ‹_›, fun _ => rfl⟩
  · exact ⟨fun h => (by cases h), fun h => absurd h ‹_›⟩

/-- C02: a successful decode consumes exactly the announced bytes and yields the
big-endian value of those bytes without the two length bits, below `2^62`. -/
theorem C02_decode_value (b : UInt8) (s r : Bytes) (v : Nat)
    (h : decodeVarint (b :: s) = some (v, r)) :
    ∃ e, b :: s = e ++ r ∧ e.length = announcedLen b ∧
      v = beVal e % 2 ^ (8 * announcedLen b - 2) ∧ v < 2 ^ 62 := by
  rw [decodeVarint_announced] at h
  split at h
  · cases h
  · rename_i hl
    simp only [Option.some.injEq, Prod.mk.injEq] at h
    obtain ⟨rfl, rfl⟩ := h
    refine ⟨(b :: s).take (announcedLen b), (List.take_append_drop _ _).symm, ?_, rfl, ?_⟩
    · rw [List.length_take]; omega
    · have hb := b.toNat_lt
      have h8 : announcedLen b ≤ 8 := by
        unfold announcedLen
        calc 2 ^ (b.toNat / 64) ≤ 2 ^ 3 := Nat.pow_le_pow_right (by omega) (by omega)
          _ = 8 := rfl
      calc _ < 2 ^ (8 * announcedLen b - 2) := Nat.mod_lt _ (Nat.two_pow_pos _)
        _ ≤ 2 ^ 62 := Nat.pow_le_pow_right (by omega) (by omega)

/-- C02: `varint_len` predicts the encoded length (including which values panic). -/
theorem C02_varint_len (v : Nat) : (encodeVarint v).map List.length = varintLen v :=
  encodeVarint_length v

/-- C02: the encoder's form is the shortest that decodes to the value. -/
theorem C02_encode_shortest (v : Nat) (e d r : Bytes) (he : encodeVarint v = some e)
    (hd : decodeVarint (d ++ r) = some (v, r)) : e.length ≤ d.length := by
  have hlen := encodeVarint_length v
  rw [he] at hlen
  cases hdr : d ++ r with
  | nil => rw [hdr] at hd; cases hd
  | cons b s =>
    rw [hdr] at hd
    obtain ⟨e', h1, h2, h3, _⟩ := C02_decode_value b s r v hd
    have hdl : d.length = announcedLen b := by
      have : (d ++ r).length = (e' ++ r).length := by rw [hdr, h1]
      simp only [List.length_append] at this; omega
    rw [hdl]
    have hlt : v < 2 ^ (8 * announcedLen b - 2) := by
      rw [h3]; exact Nat.mod_lt _ (Nat.two_pow_pos _)
    have hb := b.toNat_lt
    unfold announcedLen at *
    have hcases : b.toNat / 64 = 0 ∨ b.toNat / 64 = 1 ∨ b.toNat / 64 = 2 ∨ b.toNat / 64 = 3 := by omega
    unfold varintLen at hlen
    simp only [Nat.shiftLeft_eq, Option.map_some] at hlen
    rcases hcases with h | h | h | h <;> simp only [h] at hlt ⊢ <;>
      (repeat' split at hlen) <;> simp only [Option.some.injEq, reduceCtorEq] at hlen <;> omega

example : decodeVarint [0x40, 0x25, 9] = some (0x25, [9]) ∧ encodeVarint 0x25 = some [0x25] := by
  decide +kernel

/-! ## C03 -/

theorem decode_append (v s : Bytes) : decode v.length (v ++ s) = some (v, s) := by
  unfold decode
  rw [if_neg (by simp), List.take_left, List.drop_left]

/-- C03: fixed-width length prefix. -/
theorem C03_vec_roundtrip (n : Nat) (v : Bytes) (h0 : 0 < n) (h8 : n ≤ 8)
    (hv : v.length < 256 ^ n) :
    ∃ e, encodeVec n v = some e ∧ ∀ s, decodeVec n (e ++ s) = some (v, s) := by
  refine ⟨beBytes n v.length ++ v, by simp [encodeVec, encodeUint, h0, h8], fun s => ?_⟩
  unfold decodeVec
  rw [List.append_assoc, decodeN_beBytes h0 h8, Nat.mod_eq_of_lt hv]
  exact decode_append v s

/-- C03: varint length prefix. -/
theorem C03_vvec_roundtrip (v : Bytes) (hv : v.length < 2 ^ 62) :
    ∃ e, encodeVvec v = some e ∧ ∀ s, decodeVvec (e ++ s) = some (v, s) := by
  obtain ⟨l, hl, hd⟩ := encodeVarint_decode hv
  refine ⟨l ++ v, by simp [encodeVvec, hl], fun s => ?_⟩
  unfold decodeVvec
  rw [List.append_assoc, hd]
  exact decode_append v s

theorem decode_sound {n : Nat} {d v r : Bytes} (h : decode n d = some (v, r)) :
    d = v ++ r ∧ v.length = n := by
  unfold decode at h
  split at h
  · cases h
  · simp only [Option.some.injEq, Prod.mk.injEq] at h
    obtain ⟨rfl, rfl⟩ := h
    exact ⟨(List.take_append_drop _ _).symm, by rw [List.length_take]; omega⟩

/-- C03: a decoded fixed-width vector is exactly what the input holds: its length
is the prefix's value and nothing is made up when the input is truncated. -/
theorem C03_vec_decode_sound (n : Nat) (d v r : Bytes) (h : decodeVec n d = some (v, r)) :
    ∃ p, d = p ++ v ++ r ∧ p.length = n ∧ beVal p = v.length := by
  unfold decodeVec at h
  cases hn : decodeN n d with
  | none => rw [hn] at h; cases h
  | some lr =>
    obtain ⟨l, r'⟩ := lr
    rw [hn] at h
    obtain ⟨_, _, h3, h4, h5⟩ := decodeN_some.mp hn
    obtain ⟨h6, h7⟩ := decode_sound h
    refine ⟨d.take n, ?_, by rw [List.length_take]; omega, by rw [← h4, h7]⟩
    rw [List.append_assoc, ← h6, h5, List.take_append_drop]

/-- C03: the same for varint-prefixed vectors. -/
theorem C03_vvec_decode_sound (d v r : Bytes) (h : decodeVvec d = some (v, r)) :
    decodeVarint d = some (v.length, v ++ r) := by
  unfold decodeVvec at h
  cases hn : decodeVarint d with
  | none => rw [hn] at h; cases h
  | some lr =>
    obtain ⟨l, r'⟩ := lr
    rw [hn] at h
    obtain ⟨h6, h7⟩ := decode_sound h
    rw [h6, h7]

example : decodeVvec [2, 7, 8, 9] = some ([7, 8], [9]) := by decide +kernel

theorem set_mid (a b : Bytes) (x y : UInt8) : (a ++ [x] ++ b).set a.length y = a ++ [y] ++ b := by
  simp

theorem rotate_mid (b hi : Bytes) : rotateRight (b ++ hi) hi.length = hi ++ b := by
  unfold rotateRight
  rw [List.length_append, Nat.add_sub_cancel, List.drop_left, List.take_left]

theorem beBytes_snoc (n v : Nat) : beBytes (n + 1) v = beBytes n (v / 256) ++ [UInt8.ofNat v] := by
  induction n with
  | zero => simp [beBytes]
  | succ n ih =>
    rw [beBytes, ih, beBytes, List.cons_append, Nat.div_div_eq_div_mul, Nat.pow_succ']

/-- The tail of `encode_vvec_with` shared by the three long forms. -/
theorem vvecWith_long (pre body : Bytes) (v count bits total : Nat)
    (h0 : 0 < count) (h8 : count ≤ 8)
    (hb : total / 256 = (v >>> 8) ||| bits) (hl : UInt8.ofNat total = UInt8.ofNat (v &&& 0xff)) :
    ∃ hi, encodeUint count ((v >>> 8) ||| bits) = some hi ∧
      (let b3 := pre ++ [UInt8.ofNat (v &&& 0xff)] ++ body ++ hi
       b3.take pre.length ++ rotateRight (b3.drop pre.length) count) =
        pre ++ (beBytes (count + 1) total ++ body) := by
  refine ⟨beBytes count ((v >>> 8) ||| bits), by simp [encodeUint, h0, h8], ?_⟩
  simp only [List.append_assoc]
  rw [List.take_left, List.drop_left, beBytes_snoc, hb, hl]
  have := rotate_mid ([UInt8.ofNat (v &&& 0xff)] ++ body) (beBytes count ((v >>> 8) ||| bits))
  rw [beBytes_length] at this
  rw [List.append_assoc] at this
  rw [this]
  simp

/-- C03: writing a varint-prefixed vector in place through a closure produces the
same bytes as writing it directly, whatever was in the buffer before. -/
theorem C03_vvec_with_eq (e : Encoder) (body : Bytes) :
    e.encodeVvecWith body = (encodeVvec body).map e.encode := by
  unfold Encoder.encodeVvecWith
  have hv : (e.buf ++ [0] ++ body).length - e.buf.length - 1 = body.length := by simp
  simp only [hv, set_mid]
  generalize hvv : body.length = v
  have hff : v &&& 0xff = v % 256 := by
    have := Nat.and_two_pow_sub_one_eq_mod v 8
    simpa using this
  unfold encodeVvec encodeVarint
  simp only [hvv]
  have hsh : ∀ n, (1 : Nat) <<< n = 2 ^ n := fun n => by rw [Nat.shiftLeft_eq, Nat.one_mul]
  simp only [hsh]
  by_cases h6 : v < 2 ^ 6
  · have : v % 256 = v := by omega
    rw [if_pos h6, if_pos h6, hff, this]
    simp only [Option.map_some, Encoder.encode, beBytes, Nat.pow_zero, Nat.div_one, List.append_assoc]
  · simp only [if_neg h6]
    have hlow : ∀ t, t % 256 = v % 256 → UInt8.ofNat t = UInt8.ofNat (v &&& 0xff) := by
      intro t ht
      apply UInt8.toNat_inj.mp
      rw [hff, UInt8.toNat_ofNat', UInt8.toNat_ofNat']
      omega
    by_cases h14 : v < 2 ^ 14
    · simp only [if_pos h14]
      have o1 : v ||| 2 ^ 14 = 2 ^ 14 + v := by simpa using or_shl (a := 1) 14 h14
      have o2 : v >>> 8 ||| 2 ^ 6 = 2 ^ 6 + v / 256 := by
        have := or_shl (a := 1) (b := v >>> 8) 6 (by rw [Nat.shiftRight_eq_div_pow]; omega)
        simpa [Nat.shiftRight_eq_div_pow] using this
      obtain ⟨hi, e1, e2⟩ := vvecWith_long e.buf body v 1 (2 ^ 6) (v ||| 2 ^ 14) (by omega) (by omega)
        (by rw [o1, o2]; omega) (hlow _ (by rw [o1]; omega))
      simp only [e1, e2]
      simp [Encoder.encode]
    · simp only [if_neg h14]
      by_cases h30 : v < 2 ^ 30
      · simp only [if_pos h30]
        have o1 : v ||| 2 <<< 30 = 2 ^ 31 + v := by simpa using or_shl (a := 2) 30 h30
        have o2 : v >>> 8 ||| 2 <<< 22 = 2 ^ 23 + v / 256 := by
          have := or_shl (a := 2) (b := v >>> 8) 22 (by rw [Nat.shiftRight_eq_div_pow]; omega)
          simpa [Nat.shiftRight_eq_div_pow] using this
        obtain ⟨hi, e1, e2⟩ := vvecWith_long e.buf body v 3 (2 <<< 22) (v ||| 2 <<< 30) (by omega) (by omega)
          (by rw [o1, o2]; omega) (hlow _ (by rw [o1]; omega))
        simp only [e1, e2]
        simp [Encoder.encode]
      · simp only [if_neg h30]
        by_cases h62 : v < 2 ^ 62
        · simp only [if_pos h62]
          have o1 : v ||| 3 <<< 62 = 3 * 2 ^ 62 + v := by simpa using or_shl (a := 3) 62 h62
          have o2 : v >>> 8 ||| 3 <<< 54 = 3 * 2 ^ 54 + v / 256 := by
            have := or_shl (a := 3) (b := v >>> 8) 54 (by rw [Nat.shiftRight_eq_div_pow]; omega)
            simpa [Nat.shiftRight_eq_div_pow] using this
          obtain ⟨hi, e1, e2⟩ := vvecWith_long e.buf body v 7 (3 <<< 54) (v ||| 3 <<< 62) (by omega) (by omega)
            (by rw [o1, o2]; omega) (hlow _ (by rw [o1]; omega))
          simp only [e1, e2]
          simp [Encoder.encode]
        · simp only [if_neg h62]; rfl

example : (Encoder.mk [1, 2, 3] 1).encodeVvecWith (List.replicate 70 7) =
    some ⟨[1, 2, 3] ++ [0x40, 70] ++ List.replicate 70 7, 1⟩ := by decide +kernel

theorem writeLen_length (n len pos k : Nat) (b : Bytes) : (writeLen n len pos k b).length = b.length := by
  induction k with
  | zero => rfl
  | succ k ih => simp [writeLen, ih]

theorem writeLen_eq (n len : Nat) (pre mid post : Bytes) (k : Nat)
    (hk : k ≤ n) (hm : mid.length = n) :
    writeLen n len pre.length k (pre ++ mid ++ post) =
      pre ++ ((beBytes n len).take k ++ mid.drop k) ++ post := by
  have hget : ∀ n i, i < n → (beBytes n len)[i]? =
      some (UInt8.ofNat ((len >>> (8 * (n - i - 1))) &&& 0xff)) := by
    intro n
    induction n with
    | zero => intro i h; omega
    | succ n ih =>
      intro i hi
      cases i with
      | zero =>
        simp only [beBytes, List.getElem?_cons_zero, Option.some.injEq]
        have hff : ∀ x : Nat, x &&& 0xff = x % 256 := fun x => by
          have := Nat.and_two_pow_sub_one_eq_mod x 8
          simpa using this
        apply UInt8.toNat_inj.mp
        rw [hff, UInt8.toNat_ofNat', UInt8.toNat_ofNat', Nat.shiftRight_eq_div_pow, Nat.pow_mul]
        simp
      | succ i =>
        simp only [beBytes, List.getElem?_cons_succ]
        rw [ih i (by omega)]
        congr 4; omega
  induction k with
  | zero => simp [writeLen]
  | succ k ih =>
    rw [writeLen, ih (by omega)]
    have hl : k < (beBytes n len).length := by simp; omega
    have h1 : (beBytes n len).take (k+1) = (beBytes n len).take k ++
        [UInt8.ofNat ((len >>> (8 * (n - k - 1))) &&& 0xff)] := by
      rw [List.take_add_one, hget n k (by omega)]; rfl
    have h2 : mid.drop k = mid[k] :: mid.drop (k+1) := List.drop_eq_getElem_cons (by omega)
    rw [h1, h2]
    generalize mid[k] = z
    generalize mid.drop (k+1) = w
    generalize UInt8.ofNat ((len >>> (8 * (n - k - 1))) &&& 0xff) = y at *
    have h3 : ((beBytes n len).take k).length = k := by simp; omega
    generalize (beBytes n len).take k = t at *
    subst h3
    simp

/-- C03 (partial): for a *fixed-width* prefix the closure form agrees with the
direct form when nothing has been written through this encoder yet.  The full
claim, for every prior buffer content, is refuted by
`C03_vec_with_nonempty_false`. -/
theorem C03_vec_with_eq_partial (e : Encoder) (n : Nat) (body : Bytes)
    (he : e.buf.length = e.start) (h0 : 0 < n) (h8 : n ≤ 8) :
    e.encodeVecWith n body =
      if body.length < 256 ^ n then (encodeVec n body).map e.encode else none := by
  unfold Encoder.encodeVecWith
  have hp : e.padTo n 0 = { e with buf := e.buf ++ List.replicate n 0 } := by
    unfold Encoder.padTo
    rw [if_pos (by omega)]
    congr 3; omega
  simp only [hp, Encoder.encode]
  have hlen : (e.buf ++ List.replicate n 0 ++ body).length = e.buf.length + n + body.length := by
    simp; omega
  rw [hlen, if_neg (by omega)]
  have h256 : (1 : Nat) <<< (n * 8) = 256 ^ n := by
    rw [Nat.shiftLeft_eq, Nat.one_mul, Nat.mul_comm, Nat.pow_mul]
  have hd : e.buf.length + n + body.length - e.buf.length - n = body.length := by omega
  rw [hd, h256]
  split
  · rw [writeLen_eq n body.length e.buf (List.replicate n 0) body n (Nat.le_refl _) (by simp)]
    have ht : List.take n (beBytes n body.length) = beBytes n body.length :=
      List.take_of_length_le (by simp)
    simp [encodeVec, encodeUint, h0, h8, ht]
    congr
  · rfl

example : (Encoder.mk [9, 9] 2).encodeVecWith 2 [1, 2, 3] = some ⟨[9, 9, 0, 3, 1, 2, 3], 2⟩ := by
  decide +kernel

/-- C03, negation: on an encoder that already holds bytes the fixed-width closure
form reserves no space (`pad_to(n)` pads to a *total* length), so the length
overwrites the vector's own first bytes and is itself wrong. -/
theorem C03_vec_with_nonempty_false :
    ¬ ∀ (e : Encoder) (n : Nat) (body : Bytes), e.start ≤ e.buf.length → 0 < n → n ≤ 8 →
      body.length < 256 ^ n → e.encodeVecWith n body = (encodeVec n body).map e.encode := by
  intro h
  have := h ⟨[9, 9], 0⟩ 2 [1, 2, 3] (by decide) (by decide) (by decide) (by decide)
  revert this; decide +kernel

/-! ## C04 -/

/-- Outcome of feeding chunks one after another until a value appears. -/
inductive Fed (α : Type) where
  | panic
  | pending
  | done (v : α) (unread : Bytes)
  deriving Repr, DecidableEq

def Fed.ofOption {α : Type} : Option (α × Bytes) → Fed α
  | none => .pending
  | some (v, r) => .done v r

/-- Feed chunks to the incremental varint decoder, calling `consume` on what is
left of a chunk until it is used up (as in `FrameReader::receive`), stopping at
the first value; `unread` is everything not consumed.  A `consume` that returns
nothing and makes no progress counts as a failure (`panic`). -/
def feedUint (s : IncUint) (cs : List Bytes) : Fed Nat :=
  match cs with
  | [] => .pending
  | c :: cs =>
    match s.consume c with
    | none => .panic
    | some (_, some v, rest) => .done v (rest ++ cs.flatten)
    | some (s', none, rest) =>
      if rest = [] then feedUint s' cs
      else if rest.length < c.length then feedUint s' (rest :: cs)
      else .panic
termination_by (cs.map (·.length + 1)).sum

def feedBuffer : IncBuffer → List Bytes → Fed Bytes
  | _, [] => .pending
  | s, c :: cs =>
    match s.consume c with
    | (_, some v, rest) => .done v (rest ++ cs.flatten)
    | (s', none, rest) => if rest = [] then feedBuffer s' cs else .panic

theorem incUint_step (v r : Nat) (c : Bytes) (hr : 0 < r) (hr7 : r ≤ 7) (hc : c ≠ [])
    (hv : v * 256 ^ r < 2 ^ 62) :
    IncUint.consume ⟨v, some r⟩ c =
      some (⟨v * 256 ^ (min r c.length) + beVal (c.take (min r c.length)),
             some (r - min r c.length)⟩,
            if r - min r c.length = 0 then
              some (v * 256 ^ (min r c.length) + beVal (c.take (min r c.length))) else none,
            c.drop (min r c.length)) := by
  have hcl : 0 < c.length := List.length_pos_iff.mpr hc
  generalize ha : min r c.length = a
  have ha0 : 0 < a := by omega
  have ha7 : a ≤ 7 := by omega
  have hac : a ≤ c.length := by omega
  unfold IncUint.consume
  simp only [ha]
  rw [if_pos (by omega : a < 8)]
  unfold decodeN
  rw [if_neg (by omega), if_neg (by omega)]
  have hb : beVal (c.take a) < 256 ^ a := by
    have := beVal_lt (c.take a)
    rwa [List.length_take, Nat.min_eq_left hac] at this
  have hp : (256 : Nat) ^ a = 2 ^ (a * 8) := by rw [Nat.mul_comm, Nat.pow_mul]
  have hle : v * 256 ^ a ≤ v * 256 ^ r :=
    Nat.mul_le_mul_left _ (Nat.pow_le_pow_right (by omega) (by omega))
  have hsh : v <<< (a * 8) % 2 ^ 64 = v * 256 ^ a := by
    rw [Nat.shiftLeft_eq, hp, Nat.mod_eq_of_lt]
    rw [← hp]; omega
  have hor : v <<< (a * 8) % 2 ^ 64 ||| beVal (c.take a) = v * 256 ^ a + beVal (c.take a) := by
    rw [hsh, hp, Nat.mul_comm, Nat.two_pow_add_eq_or_of_lt (by rw [← hp]; exact hb)]
  simp only [hor]

theorem feedUint_some (cs : List Bytes) : ∀ (v r : Nat), 0 < r → r ≤ 7 → v * 256 ^ r < 2 ^ 62 →
    (∀ c ∈ cs, c ≠ []) →
    feedUint ⟨v, some r⟩ cs =
      if cs.flatten.length < r then .pending
      else .done (v * 256 ^ r + beVal (cs.flatten.take r)) (cs.flatten.drop r) := by
  induction cs with
  | nil => intro v r h0 _ _ _; simp [feedUint, h0]
  | cons c cs ih =>
    intro v r h0 h7 hv hne
    have hc : c ≠ [] := hne c (by simp)
    have hcl : 0 < c.length := List.length_pos_iff.mpr hc
    rw [feedUint, incUint_step v r c h0 h7 hc hv]
    by_cases hr : r ≤ c.length
    · have hm : min r c.length = r := by omega
      simp only [hm, Nat.sub_self, if_true, List.flatten_cons, List.length_append]
      rw [if_neg (by omega), List.take_append_of_le_length hr, List.drop_append_of_le_length hr]
    · have hm : min r c.length = c.length := by omega
      have hv' : (v * 256 ^ c.length + beVal c) * 256 ^ (r - c.length) < 2 ^ 62 := by
        have h1 := beVal_lt c
        -- need room: v * 256^r + 256^r
        have hvp : (v * 256 ^ c.length + beVal c) < (v + 1) * 256 ^ c.length := by
          rw [Nat.add_mul]; omega
        have h2 : (v * 256 ^ c.length + beVal c) * 256 ^ (r - c.length)
            < ((v + 1) * 256 ^ c.length) * 256 ^ (r - c.length) :=
          Nat.mul_lt_mul_of_pos_right hvp (Nat.pow_pos (by omega))
        have h3 : ((v + 1) * 256 ^ c.length) * 256 ^ (r - c.length) = (v + 1) * 256 ^ r := by
          rw [Nat.mul_assoc, ← Nat.pow_add]; congr 2; omega
        have h4 : (v + 1) * 256 ^ r ≤ 2 ^ 62 := by
          have hpow : (2:Nat) ^ 62 = 2 ^ (62 - 8 * r) * 256 ^ r := by
            rw [show (256:Nat) = 2 ^ 8 from rfl, ← Nat.pow_mul, ← Nat.pow_add]; congr 1; omega
          rw [hpow] at hv ⊢
          exact Nat.mul_le_mul_right _ (Nat.lt_of_mul_lt_mul_right hv)
        omega
      simp only [hm, List.take_length, List.drop_length]
      rw [if_neg (by omega)]
      simp only [if_true]
      rw [ih _ _ (by omega) (by omega) hv' (fun c' hc' => hne c' (by simp [hc']))]
      simp only [List.flatten_cons, List.length_append]
      by_cases hlt : cs.flatten.length < r - c.length
      · rw [if_pos hlt, if_pos (by omega)]
      · rw [if_neg hlt, if_neg (by omega)]
        have ht : (c ++ cs.flatten).take r = c ++ cs.flatten.take (r - c.length) := by
          rw [List.take_append, List.take_of_length_le (by omega)]
        have hd : (c ++ cs.flatten).drop r = cs.flatten.drop (r - c.length) := by
          rw [List.drop_append, List.drop_of_length_le (by omega)]; rfl
        rw [ht, hd, beVal_append]
        congr 1
        rw [List.length_take, Nat.min_eq_left (by omega), Nat.add_mul, Nat.mul_assoc, ← Nat.pow_add,
          Nat.add_assoc]
        congr 3; omega

/-- C04: feeding the incremental varint decoder any division of a byte string into
non-empty chunks gives exactly the one-shot result, at the same position, and
never panics. -/
theorem C04_uint_chunking (cs : List Bytes) (hne : ∀ c ∈ cs, c ≠ []) :
    feedUint {} cs = Fed.ofOption (decodeVarint cs.flatten) := by
  cases cs with
  | nil => rw [feedUint]; rfl
  | cons c cs =>
    have hc : c ≠ [] := hne c (by simp)
    obtain ⟨b, t, rfl⟩ := List.exists_cons_of_ne_nil hc
    have hb := b.toNat_lt
    simp only [List.flatten_cons, List.cons_append]
    rw [decodeVarint_cons]
    have hcs : ∀ c ∈ cs, c ≠ [] := fun c' hc' => hne c' (by simp [hc'])
    -- what happens after the first byte, when `r` more are needed
    have cont : ∀ r, 0 < r → r ≤ 7 →
        (if t = [] then feedUint ⟨b.toNat % 64, some r⟩ cs
         else if t.length < (b :: t).length then feedUint ⟨b.toNat % 64, some r⟩ (t :: cs)
         else .panic) =
        if (t ++ cs.flatten).length < r then Fed.pending
        else .done ((b.toNat % 64) * 256 ^ r + beVal ((t ++ cs.flatten).take r)) ((t ++ cs.flatten).drop r) := by
      intro r h0 h7
      have hlt : (b.toNat % 64) * 256 ^ r < 2 ^ 62 := by
        calc (b.toNat % 64) * 256 ^ r < 64 * 256 ^ r :=
              Nat.mul_lt_mul_of_pos_right (Nat.mod_lt _ (by decide)) (Nat.pow_pos (by decide))
          _ ≤ 64 * 256 ^ 7 := Nat.mul_le_mul_left _ (Nat.pow_le_pow_right (by decide) h7)
          _ = 2 ^ 62 := by norm_num
      by_cases ht : t = []
      · subst ht
        rw [if_pos rfl, feedUint_some cs _ r h0 h7 hlt hcs]; rfl
      · rw [if_neg ht, if_pos (by simp), feedUint_some (t :: cs) _ r h0 h7 hlt]
        · simp
        · intro c' hc'
          rcases List.mem_cons.mp hc' with rfl | h
          · exact ht
          · exact hcs _ h
    have hcases : b.toNat / 64 = 0 ∨ b.toNat / 64 = 1 ∨ b.toNat / 64 = 2 ∨ b.toNat / 64 = 3 := by omega
    rw [feedUint]
    simp only [IncUint.consume, decodeN_one_cons, Nat.shiftRight_eq_div_pow, and_3f,
      show (2:Nat)^6 = 64 from rfl]
    rcases hcases with h | h | h | h <;> simp only [h]
    · have : b.toNat % 64 = b.toNat := by omega
      simp [this, Fed.ofOption]
    · rw [if_neg (show ¬ (1:Nat) = 0 by decide)]
      simp only []
      rw [cont 1 (by decide) (by decide)]
      simp only [Nat.reduceEqDiff, if_false, if_true, Nat.one_ne_zero, Nat.succ_ne_self]
      split <;> rfl
    · rw [if_neg (show ¬ (3:Nat) = 0 by decide)]
      simp only []
      rw [cont 3 (by decide) (by decide)]
      simp only [Nat.reduceEqDiff, if_false, if_true, show ((2:Nat) = 0) = False by simp]
      split <;> rfl
    · rw [if_neg (show ¬ (7:Nat) = 0 by decide)]
      simp only []
      rw [cont 7 (by decide) (by decide)]
      simp only [Nat.reduceEqDiff, if_false, if_true, show ((3:Nat) = 0) = False by simp]
      split <;> rfl

example : feedUint {} [[0x80], [1, 2], [3, 9]] = .done 0x10203 [9] ∧
    (∀ c ∈ [[(0x80 : UInt8)], [1, 2], [3, 9]], c ≠ []) := by
  constructor
  · rw [C04_uint_chunking _ (by decide)]; decide +kernel
  · decide

/-- C04: the fixed-length blob decoder, in any chunking (empty chunks included,
and also `n = 0` provided `consume` is called at least once). -/
theorem feedBuffer_gen (cs : List Bytes) : ∀ (acc : Bytes) (n : Nat), (0 < n ∨ cs ≠ []) →
    feedBuffer ⟨acc, n⟩ cs =
      if cs.flatten.length < n then .pending
      else .done (acc ++ cs.flatten.take n) (cs.flatten.drop n) := by
  induction cs with
  | nil => intro acc n h; simp at h; simp [feedBuffer, h]
  | cons c cs ih =>
    intro acc n _
    unfold feedBuffer IncBuffer.consume
    simp only [List.flatten_cons, List.length_append]
    by_cases hn : n ≤ c.length
    · have hm : min n c.length = n := by omega
      simp only [hm, Nat.sub_self, if_true]
      rw [if_neg (by omega), List.take_append_of_le_length hn, List.drop_append_of_le_length hn]
    · have hm : min n c.length = c.length := by omega
      simp only [hm]
      rw [if_neg (by omega)]
      simp only [List.take_length, List.drop_length, if_true]
      rw [ih _ _ (Or.inl (by omega))]
      by_cases hlt : cs.flatten.length < n - c.length
      · rw [if_pos hlt, if_pos (by omega)]
      · rw [if_neg hlt, if_neg (by omega)]
        have ht : (c ++ cs.flatten).take n = c ++ cs.flatten.take (n - c.length) := by
          rw [List.take_append, List.take_of_length_le (by omega)]
        have hd : (c ++ cs.flatten).drop n = cs.flatten.drop (n - c.length) := by
          rw [List.drop_append, List.drop_of_length_le (by omega)]; rfl
        rw [ht, hd, List.append_assoc]

/-- C04: chunked decoding of an `n`-byte blob equals one-shot `decode n`. -/
theorem C04_buffer_chunking (n : Nat) (cs : List Bytes) (h : 0 < n ∨ cs ≠ []) :
    feedBuffer (IncBuffer.new n) cs = Fed.ofOption (decode n cs.flatten) := by
  rw [IncBuffer.new, feedBuffer_gen cs [] n h]
  unfold decode
  split <;> simp [Fed.ofOption]

example : feedBuffer (IncBuffer.new 3) [[1], [], [2, 3, 4]] = .done [1, 2, 3] [4] := by decide

/-- Feed chunks to the skipping decoder. -/
def feedIgnore : Nat → List Bytes → Fed Unit
  | _, [] => .pending
  | n, c :: cs =>
    match incIgnoreConsume n c with
    | (_, true, rest) => .done () (rest ++ cs.flatten)
    | (n', false, rest) => if rest = [] then feedIgnore n' cs else .panic

/-- C04: chunked skipping of `n > 0` bytes skips exactly `n` bytes. -/
theorem C04_ignore_chunking (cs : List Bytes) : ∀ (n : Nat), 0 < n →
    feedIgnore n cs =
      if cs.flatten.length < n then .pending else .done () (cs.flatten.drop n) := by
  induction cs with
  | nil => intro n h; simp [feedIgnore, h]
  | cons c cs ih =>
    intro n h
    unfold feedIgnore incIgnoreConsume
    simp only [List.flatten_cons, List.length_append]
    by_cases hn : n ≤ c.length
    · have hm : min n c.length = n := by omega
      simp only [hm, Nat.sub_self, decide_true]
      rw [if_neg (by omega), List.drop_append_of_le_length hn]
    · have hm : min n c.length = c.length := by omega
      have : decide (n - c.length = 0) = false := by simp; omega
      simp only [hm, this, List.drop_length, if_true]
      rw [ih _ (by omega)]
      by_cases hlt : cs.flatten.length < n - c.length
      · rw [if_pos hlt, if_pos (by omega)]
      · have hd : (c ++ cs.flatten).drop n = cs.flatten.drop (n - c.length) := by
          rw [List.drop_append, List.drop_of_length_le (by omega)]; rfl
        rw [if_neg hlt, if_neg (by omega), hd]

end Neqo.Codec
