import Verif.H3.ReaderSpec
import Verif.Codec.Props

/-! Lemmas for C43. -/
namespace Neqo.H3
open Neqo.Codec
open Spec (Kind cut also read frames)

variable {T : Type}

/-! ## The specification without its bound -/

theorem decodeVarint_shorter {bs r : Bytes} {v : Nat} (h : decodeVarint bs = some (v, r)) :
    r.length < bs.length := by
  cases bs with
  | nil => rw [C02_decode_nil] at h; cases h
  | cons b s =>
    rw [decodeVarint_cons] at h
    repeat' split at h
    all_goals first
      | (cases h; done)
      | (simp only [Option.some.injEq, Prod.mk.injEq] at h
         obtain ⟨_, rfl⟩ := h
         simp only [List.length_cons, List.length_drop]; omega)

/-- What follows the length of a frame. -/
def afterLen (kind : Nat → Kind T) (rest : Bytes → List (Item T) × End) (t len : Nat) (r2 : Bytes)
    (fin : Bool) : List (Item T) × End :=
  match kind t with
  | .inline mk =>
    also (.frame (mk len) :: (r2.take len).map .byte)
      (if r2.length < len then cut fin else rest (r2.drop len))
  | .whole limit parse =>
    if limit < len then ([], .failed .httpExcessiveLoad)
    else if r2.length < len then cut fin
    else match parse (r2.take len) with
      | .error e => ([], .failed e)
      | .ok f => also [.frame f] (rest (r2.drop len))
  | _ => if r2.length < len then cut fin else rest (r2.drop len)

/-- What follows the type of a frame. -/
def afterType (kind : Nat → Kind T) (rest : Bytes → List (Item T) × End) (t : Nat) (r1 : Bytes)
    (fin : Bool) : List (Item T) × End :=
  match kind t with
  | .reserved => ([], .failed .httpFrameUnexpected)
  | _ =>
    match decodeVarint r1 with
    | none => cut fin
    | some (len, r2) => afterLen kind rest t len r2 fin

theorem frames_succ (kind : Nat → Kind T) (fuel : Nat) (b : UInt8) (bs : Bytes) (fin : Bool) :
    frames kind (fuel + 1) (b :: bs) fin =
      match decodeVarint (b :: bs) with
      | none => cut fin
      | some (t, r1) => afterType kind (fun r => frames kind fuel r fin) t r1 fin := by
  rw [frames]
  cases decodeVarint (b :: bs) with
  | none => rfl
  | some x =>
    obtain ⟨t, r1⟩ := x
    simp only [afterType, afterLen]
    cases kind t <;> simp only [] <;> cases decodeVarint r1 <;> rfl

theorem afterLen_congr (kind : Nat → Kind T) (f g : Bytes → List (Item T) × End) (t len : Nat)
    (r2 : Bytes) (fin : Bool) (h : ∀ r : Bytes, r.length ≤ r2.length → f r = g r) :
    afterLen kind f t len r2 fin = afterLen kind g t len r2 fin := by
  have hd : f (r2.drop len) = g (r2.drop len) := h _ (by simp)
  simp only [afterLen, hd]

theorem afterType_congr (kind : Nat → Kind T) (f g : Bytes → List (Item T) × End) (t : Nat)
    (r1 : Bytes) (fin : Bool) (h : ∀ r : Bytes, r.length ≤ r1.length → f r = g r) :
    afterType kind f t r1 fin = afterType kind g t r1 fin := by
  have hd : ∀ len r2, decodeVarint r1 = some (len, r2) →
      afterLen kind f t len r2 fin = afterLen kind g t len r2 fin := fun len r2 hv =>
    afterLen_congr kind f g t len r2 fin
      (fun r hr => h r (by have := decodeVarint_shorter hv; omega))
  unfold afterType
  cases hv : decodeVarint r1 with
  | none => rfl
  | some x => obtain ⟨len, r2⟩ := x; simp only [hd len r2 hv]

theorem frames_fuel (kind : Nat → Kind T) (fin : Bool) : ∀ (n m : Nat) (bs : Bytes),
    bs.length < n → bs.length < m → frames kind n bs fin = frames kind m bs fin := by
  intro n
  induction n with
  | zero => intro m bs h; omega
  | succ n ih =>
    intro m bs hn hm
    cases m with
    | zero => omega
    | succ m =>
      cases bs with
      | nil => rfl
      | cons b bs =>
        rw [frames_succ, frames_succ]
        cases hv : decodeVarint (b :: bs) with
        | none => rfl
        | some x =>
          obtain ⟨t, r1⟩ := x
          have h1 := decodeVarint_shorter hv
          simp only [List.length_cons] at hn hm h1
          exact afterType_congr kind _ _ t r1 fin (fun r hr => ih m r (by omega) (by omega))

theorem read_nil (kind : Nat → Kind T) (fin : Bool) :
    read kind [] fin = ([], if fin then .finished else .more) := rfl

theorem read_ne (kind : Nat → Kind T) (bs : Bytes) (fin : Bool) (hne : bs ≠ []) :
    read kind bs fin =
      match decodeVarint bs with
      | none => cut fin
      | some (t, r1) => afterType kind (fun r => read kind r fin) t r1 fin := by
  cases bs with
  | nil => exact absurd rfl hne
  | cons b bs =>
    show frames kind _ (b :: bs) fin = _
    rw [frames_succ]
    cases hv : decodeVarint (b :: bs) with
    | none => rfl
    | some x =>
      obtain ⟨t, r1⟩ := x
      have h1 := decodeVarint_shorter hv
      simp only [List.length_cons] at h1
      exact afterType_congr kind _ _ t r1 fin
        (fun r hr => frames_fuel kind fin _ _ r (by simp; omega) (by omega))

/-! ## Varints read in pieces -/

/-- The state of an incremental varint decoder that has not finished. -/
def VU (d : IncUint) : Prop :=
  ∀ r, d.remaining = some r → 0 < r ∧ r ≤ 7 ∧ d.v * 256 ^ r < 2 ^ 62

/-- What the varint being read will be, from the bytes to come. -/
def uintRest (d : IncUint) (bs : Bytes) : Option (Nat × Bytes) :=
  match d.remaining with
  | none => decodeVarint bs
  | some r =>
    if bs.length < r then none else some (d.v * 256 ^ r + beVal (bs.take r), bs.drop r)

theorem room_shift {v r a x : Nat} (hr7 : r ≤ 7) (ha : a ≤ r) (hv : v * 256 ^ r < 2 ^ 62)
    (hx : x < 256 ^ a) : (v * 256 ^ a + x) * 256 ^ (r - a) < 2 ^ 62 := by
  have hvp : v * 256 ^ a + x < (v + 1) * 256 ^ a := by rw [Nat.add_mul]; omega
  have h2 : (v * 256 ^ a + x) * 256 ^ (r - a) < ((v + 1) * 256 ^ a) * 256 ^ (r - a) :=
    Nat.mul_lt_mul_of_pos_right hvp (Nat.pow_pos (by omega))
  have h3 : ((v + 1) * 256 ^ a) * 256 ^ (r - a) = (v + 1) * 256 ^ r := by
    rw [Nat.mul_assoc, ← Nat.pow_add]; congr 2; omega
  have h4 : (v + 1) * 256 ^ r ≤ 2 ^ 62 := by
    have hpow : (2:Nat) ^ 62 = 2 ^ (62 - 8 * r) * 256 ^ r := by
      rw [show (256:Nat) = 2 ^ 8 from rfl, ← Nat.pow_mul, ← Nat.pow_add]; congr 1; omega
    rw [hpow] at hv ⊢
    exact Nat.mul_le_mul_right _ (Nat.lt_of_mul_lt_mul_right hv)
  omega

theorem uint_consume (d : IncUint) (hd : VU d) (c : Bytes) (hc : c ≠ [])
    (hlen : c.length ≤ d.minRemaining) :
    ∃ d' o, d.consume c = some (d', o, []) ∧
      (∀ v, o = some v → ∀ rest, uintRest d (c ++ rest) = some (v, rest)) ∧
      (o = none → VU d' ∧ d'.remaining.isSome ∧
        ∀ rest, uintRest d (c ++ rest) = uintRest d' rest) := by
  obtain ⟨v, rem⟩ := d
  have hcl : 0 < c.length := List.length_pos_iff.mpr hc
  cases rem with
  | some r =>
    obtain ⟨h0, h7, hv⟩ := hd r rfl
    simp only [IncUint.minRemaining, Option.getD_some] at hlen
    simp only at hv
    have hm : min r c.length = c.length := by omega
    have hb := beVal_lt c
    have e := incUint_step v r c h0 h7 hc hv
    rw [hm, List.take_length, List.drop_length] at e
    refine ⟨_, _, e, ?_, ?_⟩
    · intro w hw rest
      by_cases hz : r - c.length = 0
      · rw [if_pos hz] at hw
        have hrc : r = c.length := by omega
        simp only [uintRest]
        rw [if_neg (by simp; omega)]
        subst hrc
        rw [List.take_left, List.drop_left]
        exact congrArg (fun x => x.map (fun y => (y, rest))) hw
      · rw [if_neg hz] at hw; cases hw
    · intro hn
      by_cases hz : r - c.length = 0
      · rw [if_pos hz] at hn; cases hn
      · refine ⟨?_, rfl, ?_⟩
        · intro r' hr'
          simp only [Option.some.injEq] at hr'
          subst hr'
          exact ⟨by omega, by omega, room_shift h7 hlen hv hb⟩
        · intro rest
          simp only [uintRest, List.length_append]
          by_cases hs : rest.length < r - c.length
          · rw [if_pos hs, if_pos (by omega)]
          · rw [if_neg hs, if_neg (by omega)]
            have ht : (c ++ rest).take r = c ++ rest.take (r - c.length) := by
              rw [List.take_append, List.take_of_length_le (by omega)]
            have hdr : (c ++ rest).drop r = rest.drop (r - c.length) := by
              rw [List.drop_append, List.drop_of_length_le (by omega)]; rfl
            rw [ht, hdr, beVal_append]
            congr 2
            rw [List.length_take, Nat.min_eq_left (by omega), Nat.add_mul, Nat.mul_assoc,
              ← Nat.pow_add, Nat.add_assoc]
            congr 3; omega
  | none =>
    simp only [IncUint.minRemaining, Option.getD_none] at hlen
    obtain ⟨b, rfl⟩ : ∃ b, c = [b] := by
      cases c with
      | nil => exact absurd rfl hc
      | cons b t =>
        cases t with
        | nil => exact ⟨b, rfl⟩
        | cons _ _ => simp at hlen
    have hb := b.toNat_lt
    have hcases : b.toNat / 64 = 0 ∨ b.toNat / 64 = 1 ∨ b.toNat / 64 = 2 ∨ b.toNat / 64 = 3 := by omega
    have hroom : ∀ r, 0 < r → r ≤ 7 → (b.toNat % 64) * 256 ^ r < 2 ^ 62 := by
      intro r h0 h7
      calc (b.toNat % 64) * 256 ^ r < 64 * 256 ^ r :=
            Nat.mul_lt_mul_of_pos_right (Nat.mod_lt _ (by decide)) (Nat.pow_pos (by decide))
        _ ≤ 64 * 256 ^ 7 := Nat.mul_le_mul_left _ (Nat.pow_le_pow_right (by decide) h7)
        _ = 2 ^ 62 := by norm_num
    simp only [IncUint.consume, decodeN_one_cons, Nat.shiftRight_eq_div_pow, and_3f,
      show (2:Nat)^6 = 64 from rfl, uintRest, List.cons_append, List.nil_append, decodeVarint_cons]
    rcases hcases with h | h | h | h <;> simp only [h]
    · refine ⟨_, _, rfl, ?_, ?_⟩
      · intro v hv rest
        simp only [if_true, Option.some.injEq] at hv
        subst hv
        have : b.toNat % 64 = b.toNat := by omega
        simp [this]
      · intro hn; simp at hn
    all_goals
      refine ⟨_, _, rfl, ?_, ?_⟩
      · intro v hv; simp at hv
      · intro _
        refine ⟨?_, rfl, ?_⟩
        · intro r hr
          simp only [Option.some.injEq] at hr
          subst hr
          exact ⟨by omega, by omega, hroom _ (by omega) (by omega)⟩
        · intro rest
          simp

end Neqo.H3
