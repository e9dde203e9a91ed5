import Verif.Qpack.Frame

/-! # Instructions are read as they were written -/
namespace Neqo.Qp
open Neqo.Codec Spec

/-- A string that a reader accepts, however it is coded. -/
def Short (huff : Bool) (s : Bytes) : Prop := (if huff then (30 * s.length + 7) / 8 else s.length) ≤ maxLiteral

instance (huff : Bool) (s : Bytes) : Decidable (Short huff s) := by unfold Short; infer_instance

theorem Short.lt {huff : Bool} {s : Bytes} (h : Short huff s) : s.length < 2 ^ 60 := by
  unfold Short maxLiteral at h
  cases huff
  · simp at h; omega
  · simp at h; omega

/-- What `encoder_instructions` can carry. -/
def EncInstr.Ok (huff : Bool) : EncInstr → Prop
  | .capacity v => v < 2 ^ 64
  | .insertStatic i v => i < 2 ^ 64 ∧ Short huff v
  | .insertDynamic i v => i < 2 ^ 64 ∧ Short huff v
  | .insertLiteral n v => Short huff n ∧ Short huff v
  | .duplicate i => i < 2 ^ 64

/-- What `decoder_instructions` can carry. -/
def DecInstr.Ok : DecInstr → Prop
  | .increment n => n < 2 ^ 64
  | .headerAck s => s < 2 ^ 64
  | .cancel s => s < 2 ^ 64

theorem cmp_false {p : Prefix} {b : UInt8} (h : ¬ b.toNat &&& p.mask = p.pre) : p.cmp b = false := by
  unfold Prefix.cmp; simp only [h, decide_false]

theorem cmp_true {p : Prefix} {b : UInt8} (h : b.toNat &&& p.mask = p.pre) : p.cmp b = true := by
  unfold Prefix.cmp; simp only [h, decide_true]

theorem fresh_of {huff : Bool} {s : Bytes} (hs : Short huff s) :
    ∃ y, encodeLiteral huff noPrefix s = .ok y ∧ LitIs 0 s y ∧ ∀ rest, ∃ r, LitR.fresh.read (y ++ rest) = .done s r rest := by
  obtain ⟨b, i, e, h1, h2, h3, h4, -, h5, h6⟩ := encode_lit_ok (huff := huff) (p := noPrefix) (by constructor <;> decide) hs.lt
  refine ⟨_, h1, ⟨i, e, rfl, h2, h4⟩, fun rest => ?_⟩
  refine fresh_iff.mpr ⟨b, i ++ e ++ rest, by simp, ?_⟩
  exact (lit_iff (len := 0) (by decide)).mpr ⟨i, e, rfl, h2, h3, le_trans h6 hs, h4⟩

theorem readInt_of {p : Prefix} (hp : p.Ok) {n : Nat} (hn : n < 2 ^ 64) :
    ∃ b x, encodeInt p n = b :: x ∧ topBits p.len b.toNat = topBits p.len p.pre ∧ IntIs p.len n (b :: x) ∧
      ∀ rest, ∃ r, (IntR.new b p.len).read (x ++ rest) = .done n r rest := by
  obtain ⟨h1, h2, b, x, h3, h4, -⟩ := encode_int_ok hp hn
  rw [h3] at h1 h2
  refine ⟨b, x, h3, h4, h1, fun rest => (int_iff hp.len_lt).mpr ⟨x, rfl, h1, hn, ?_⟩⟩
  simp at h2; omega

theorem top23 {b : Nat} : b / 2 ^ (8 - 2) = b / 2 ^ (8 - 3) / 2 := by
  show b / 64 = b / 32 / 2
  omega

theorem readValue_of {st : Bool} {j : Nat} {bs rest v : Bytes} (h : ∃ r, LitR.fresh.read bs = .done v r rest) :
    EncR.readValue st j LitR.fresh bs = .done (if st then .insertStatic j v else .insertDynamic j v) .start rest := by
  obtain ⟨r, h⟩ := h
  unfold EncR.readValue; rw [h]

/-- An instruction of the encoder, once it was written, is read. -/
theorem enc_read_marshal {huff : Bool} {i : EncInstr} (hi : i.Ok huff) :
    ∃ p, i.marshal huff = .ok p ∧ EncIs i p ∧ ∀ rest, EncR.read .start (p ++ rest) = .done i .start rest := by
  cases i with
  | capacity v =>
    obtain ⟨b, x, h1, h2, h3, h4⟩ := readInt_of (p := encoderCapacity) (by constructor <;> decide) hi
    have ht : b.toNat / 2 ^ (8 - 3) = 1 := h2
    obtain ⟨q1, q2, q3, q4, q5⟩ := enc_prefix b.toNat b.toNat_lt
    rw [top23] at q1 q2 q3
    refine ⟨_, congrArg Except.ok h1, ⟨ht, h3⟩, fun rest => ?_⟩
    obtain ⟨r, h4⟩ := h4 rest
    show EncR.first b (x ++ rest) = _
    unfold EncR.first
    rw [cmp_false (by rw [q1]; omega), cmp_false (by rw [q2]; omega), cmp_false (by rw [q3]; omega), cmp_true (by rw [q4]; omega)]
    simp only [Bool.false_eq_true, if_false, if_true]
    unfold EncR.readInt
    rw [h4]
  | duplicate v =>
    obtain ⟨b, x, h1, h2, h3, h4⟩ := readInt_of (p := encoderDuplicate) (by constructor <;> decide) hi
    have ht : b.toNat / 2 ^ (8 - 3) = 0 := h2
    obtain ⟨q1, q2, q3, q4, q5⟩ := enc_prefix b.toNat b.toNat_lt
    rw [top23] at q1 q2 q3
    refine ⟨_, congrArg Except.ok h1, ⟨ht, h3⟩, fun rest => ?_⟩
    obtain ⟨r, h4⟩ := h4 rest
    show EncR.first b (x ++ rest) = _
    unfold EncR.first
    rw [cmp_false (by rw [q1]; omega), cmp_false (by rw [q2]; omega), cmp_false (by rw [q3]; omega),
      cmp_false (by rw [q4]; omega), cmp_true (by rw [q5]; omega)]
    simp only [Bool.false_eq_true, if_false, if_true]
    unfold EncR.readInt
    have h4' : (IntR.new b encoderCapacity.len).read (x ++ rest) = .done v r rest := h4
    rw [h4']
  | insertStatic j v =>
    obtain ⟨b, x, h1, h2, h3, h4⟩ := readInt_of (p := encoderInsertWithNameRefStatic) (by constructor <;> decide) hi.1
    have ht : b.toNat / 2 ^ (8 - 2) = 3 := h2
    obtain ⟨q1, q2, q3, q4, q5⟩ := enc_prefix b.toNat b.toNat_lt
    obtain ⟨y, l1, l2, l3⟩ := fresh_of hi.2
    refine ⟨b :: x ++ y, by simp only [EncInstr.marshal, l1, h1]; rfl, ⟨b :: x, y, rfl, ht, h3, l2⟩, fun rest => ?_⟩
    obtain ⟨r, h4⟩ := h4 (y ++ rest)
    rw [List.append_assoc]
    show EncR.first b (x ++ (y ++ rest)) = _
    unfold EncR.first
    rw [cmp_true (by rw [q1]; omega)]
    simp only [if_true]
    unfold EncR.readInt
    rw [h4]
    exact readValue_of (l3 rest)
  | insertDynamic j v =>
    obtain ⟨b, x, h1, h2, h3, h4⟩ := readInt_of (p := encoderInsertWithNameRefDynamic) (by constructor <;> decide) hi.1
    have ht : b.toNat / 2 ^ (8 - 2) = 2 := h2
    obtain ⟨q1, q2, q3, q4, q5⟩ := enc_prefix b.toNat b.toNat_lt
    obtain ⟨y, l1, l2, l3⟩ := fresh_of hi.2
    refine ⟨b :: x ++ y, by simp only [EncInstr.marshal, l1, h1]; rfl, ⟨b :: x, y, rfl, ht, h3, l2⟩, fun rest => ?_⟩
    obtain ⟨r, h4⟩ := h4 (y ++ rest)
    have h4' : (IntR.new b encoderInsertWithNameRefStatic.len).read (x ++ (y ++ rest)) = .done j r (y ++ rest) := h4
    rw [List.append_assoc]
    show EncR.first b (x ++ (y ++ rest)) = _
    unfold EncR.first
    rw [cmp_false (by rw [q1]; omega), cmp_true (by rw [q2]; omega)]
    simp only [Bool.false_eq_true, if_false, if_true]
    unfold EncR.readInt
    rw [h4']
    exact readValue_of (l3 rest)
  | insertLiteral n v =>
    obtain ⟨b, i, e, h1, h2, h3, h4, h5, -, h6⟩ := encode_lit_ok (huff := huff) (p := encoderInsertWithNameLiteral) (by constructor <;> decide) hi.1.lt
    have ht : b.toNat / 2 ^ (8 - 2) = 1 := h5
    obtain ⟨q1, q2, q3, q4, q5⟩ := enc_prefix b.toNat b.toNat_lt
    obtain ⟨y, l1, l2, l3⟩ := fresh_of hi.2
    refine ⟨b :: i ++ e ++ y, by simp only [EncInstr.marshal, l1, h1]; rfl, ⟨b :: i ++ e, y, rfl, ht, ⟨i, e, rfl, h2, h4⟩, l2⟩, fun rest => ?_⟩
    obtain ⟨r, h7⟩ := (lit_iff (len := 2) (s := n) (rest := y ++ rest) (bs := i ++ e ++ (y ++ rest)) (b := b) (by decide)).mpr
      ⟨i, e, rfl, h2, h3, le_trans h6 hi.1, h4⟩
    have hr : b :: i ++ e ++ y ++ rest = b :: (i ++ e ++ (y ++ rest)) := by simp
    rw [hr]
    show EncR.first b _ = _
    unfold EncR.first
    rw [cmp_false (by rw [q1]; omega), cmp_false (by rw [q2]; omega), cmp_true (by rw [q3]; omega)]
    simp only [Bool.false_eq_true, if_false, if_true]
    have h7' : (LitR.new b encoderInsertWithNameLiteral.len).read (i ++ e ++ (y ++ rest)) = .done n r (y ++ rest) := h7
    unfold EncR.readName
    rw [h7']
    obtain ⟨r, l3⟩ := l3 rest
    show EncR.readSecond n LitR.fresh (y ++ rest) = _
    unfold EncR.readSecond
    rw [l3]

theorem lit_sound {b : UInt8} {len : Nat} {s bs rest : Bytes} {r : LitR} (hl : len < 7) (h : (LitR.new b len).read bs = .done s r rest) :
    ∃ y, bs = y ++ rest ∧ LitIs len s (b :: y) := by
  obtain ⟨i, e, rfl, h2, -, -, h5⟩ := (lit_iff hl).mp ⟨r, h⟩
  exact ⟨i ++ e, rfl, i, e, rfl, h2, h5⟩

theorem fresh_sound {s bs rest : Bytes} {r : LitR} (h : LitR.fresh.read bs = .done s r rest) :
    ∃ y, bs = y ++ rest ∧ LitIs 0 s y := by
  obtain ⟨b, bs', rfl, r, h⟩ := fresh_iff.mp ⟨r, h⟩
  obtain ⟨y, rfl, h2⟩ := lit_sound (by decide) h
  exact ⟨b :: y, rfl, h2⟩

theorem int_sound {b : UInt8} {len n : Nat} {bs rest : Bytes} {r : IntR} (hl : len < 8) (h : (IntR.new b len).read bs = .done n r rest) :
    ∃ x, bs = x ++ rest ∧ IntIs len n (b :: x) := by
  obtain ⟨x, h1, h2, -⟩ := (int_iff hl).mp ⟨r, h⟩
  exact ⟨x, h1, h2⟩

theorem readValue_sound {st : Bool} {j : Nat} {bs rest : Bytes} {i : EncInstr} {s : EncR}
    (h : EncR.readValue st j LitR.fresh bs = .done i s rest) :
    ∃ v y, i = (if st then .insertStatic j v else .insertDynamic j v) ∧ bs = y ++ rest ∧ LitIs 0 v y := by
  unfold EncR.readValue at h
  cases hr : LitR.fresh.read bs with
  | done v r rest' =>
    rw [hr] at h
    cases h
    obtain ⟨y, h1, h2⟩ := fresh_sound hr
    exact ⟨v, y, rfl, h1, h2⟩
  | more r => rw [hr] at h; cases h
  | fail e => rw [hr] at h; cases h

/-- Only what is an instruction is read as one. -/
theorem enc_read_sound {bs rest : Bytes} {i : EncInstr} {s : EncR} (h : EncR.read .start bs = .done i s rest) :
    ∃ p, bs = p ++ rest ∧ EncIs i p := by
  cases bs with
  | nil => cases h
  | cons b bs =>
    change EncR.first b bs = .done i s rest at h
    obtain ⟨q1, q2, q3, q4, q5⟩ := enc_prefix b.toNat b.toNat_lt
    unfold EncR.first Prefix.cmp at h
    simp only [decide_eq_true_eq, q1, q2, q3, q4, q5] at h
    have hint : ∀ {k len}, len < 8 → EncR.readInt k (IntR.new b len) bs = .done i s rest →
        ∃ n x r tl, bs = x ++ tl ∧ IntIs len n (b :: x) ∧ (match k with
          | .capacity => (R.done (.capacity n) .start tl : R EncR EncInstr)
          | .duplicate => .done (.duplicate n) .start tl
          | .nameRef st => EncR.readValue st n LitR.fresh tl) = .done i s rest ∧ (IntR.new b len).read bs = .done n r tl := by
      intro k len hl h
      unfold EncR.readInt at h
      cases hr : (IntR.new b len).read bs with
      | done n r tl =>
        rw [hr] at h
        obtain ⟨x, h1, h2⟩ := int_sound hl hr
        exact ⟨n, x, r, tl, h1, h2, h, rfl⟩
      | more r => rw [hr] at h; cases h
      | fail e => rw [hr] at h; cases h
    split at h
    · rename_i hb
      obtain ⟨n, x, r, tl, rfl, h2, h3, -⟩ := hint (by decide) h
      obtain ⟨v, y, rfl, rfl, h4⟩ := readValue_sound h3
      exact ⟨b :: x ++ y, by simp, b :: x, y, rfl, hb, h2, h4⟩
    · split at h
      · rename_i hb
        obtain ⟨n, x, r, tl, rfl, h2, h3, -⟩ := hint (by decide) h
        obtain ⟨v, y, rfl, rfl, h4⟩ := readValue_sound h3
        exact ⟨b :: x ++ y, by simp, b :: x, y, rfl, hb, h2, h4⟩
      · split at h
        · rename_i hb
          unfold EncR.readName at h
          cases hr : (LitR.new b encoderInsertWithNameLiteral.len).read bs with
          | more r => rw [hr] at h; cases h
          | fail e => rw [hr] at h; cases h
          | done n r tl =>
            rw [hr] at h
            change EncR.readSecond n LitR.fresh tl = .done i s rest at h
            obtain ⟨x, rfl, h2⟩ := lit_sound (by decide) hr
            unfold EncR.readSecond at h
            cases hr2 : LitR.fresh.read tl with
            | more r => rw [hr2] at h; cases h
            | fail e => rw [hr2] at h; cases h
            | done v r2 tl2 =>
              rw [hr2] at h
              cases h
              obtain ⟨y, rfl, h4⟩ := fresh_sound hr2
              exact ⟨b :: x ++ y, by simp, b :: x, y, rfl, hb, h2, h4⟩
        · split at h
          · rename_i hb
            obtain ⟨n, x, r, tl, rfl, h2, h3, -⟩ := hint (by decide) h
            cases h3
            exact ⟨b :: x, rfl, hb, h2⟩
          · split at h
            · rename_i hb
              obtain ⟨n, x, r, tl, rfl, h2, h3, -⟩ := hint (by decide) h
              cases h3
              exact ⟨b :: x, rfl, hb, h2⟩
            · cases h

theorem top12 {b : Nat} : b / 2 ^ (8 - 1) = b / 2 ^ (8 - 2) / 2 := by
  show b / 128 = b / 64 / 2
  omega

/-- An instruction of the decoder, once it was written, is read. -/
theorem dec_read_marshal {i : DecInstr} (hi : i.Ok) :
    DecIs i i.marshal ∧ ∀ rest, DecR.read .start (i.marshal ++ rest) = .done i .start rest := by
  cases i with
  | increment n =>
    obtain ⟨b, x, h1, h2, h3, h4⟩ := readInt_of (p := decoderInsertCountIncrement) (by constructor <;> decide) hi
    have ht : b.toNat / 2 ^ (8 - 2) = 0 := h2
    obtain ⟨q1, q2, q3⟩ := dec_prefix b.toNat b.toNat_lt
    rw [top12] at q1
    have hm : DecInstr.marshal (.increment n) = b :: x := h1
    rw [hm]
    refine ⟨⟨ht, h3⟩, fun rest => ?_⟩
    obtain ⟨r, h4⟩ := h4 rest
    show DecR.first b (x ++ rest) = _
    unfold DecR.first
    rw [cmp_false (by rw [q1]; omega), cmp_false (by rw [q2]; omega), cmp_true (by rw [q3]; omega)]
    simp only [Bool.false_eq_true, if_false, if_true]
    unfold DecR.readInt
    rw [h4]
    rfl
  | headerAck n =>
    obtain ⟨b, x, h1, h2, h3, h4⟩ := readInt_of (p := decoderHeaderAck) (by constructor <;> decide) hi
    have ht : b.toNat / 2 ^ (8 - 1) = 1 := h2
    obtain ⟨q1, q2, q3⟩ := dec_prefix b.toNat b.toNat_lt
    have hm : DecInstr.marshal (.headerAck n) = b :: x := h1
    rw [hm]
    refine ⟨⟨ht, h3⟩, fun rest => ?_⟩
    obtain ⟨r, h4⟩ := h4 rest
    show DecR.first b (x ++ rest) = _
    unfold DecR.first
    rw [cmp_true (by rw [q1]; omega)]
    simp only [if_true]
    unfold DecR.readInt
    rw [h4]
    rfl
  | cancel n =>
    obtain ⟨b, x, h1, h2, h3, h4⟩ := readInt_of (p := decoderStreamCancellation) (by constructor <;> decide) hi
    have ht : b.toNat / 2 ^ (8 - 2) = 1 := h2
    obtain ⟨q1, q2, q3⟩ := dec_prefix b.toNat b.toNat_lt
    rw [top12] at q1
    have hm : DecInstr.marshal (.cancel n) = b :: x := h1
    rw [hm]
    refine ⟨⟨ht, h3⟩, fun rest => ?_⟩
    obtain ⟨r, h4⟩ := h4 rest
    show DecR.first b (x ++ rest) = _
    unfold DecR.first
    rw [cmp_false (by rw [q1]; omega), cmp_true (by rw [q2]; omega)]
    simp only [Bool.false_eq_true, if_false, if_true]
    unfold DecR.readInt
    rw [h4]
    rfl

/-- Only what is an instruction is read as one. -/
theorem dec_read_sound {bs rest : Bytes} {i : DecInstr} {s : DecR} (h : DecR.read .start bs = .done i s rest) :
    ∃ p, bs = p ++ rest ∧ DecIs i p := by
  cases bs with
  | nil => cases h
  | cons b bs =>
    change DecR.first b bs = .done i s rest at h
    obtain ⟨q1, q2, q3⟩ := dec_prefix b.toNat b.toNat_lt
    unfold DecR.first Prefix.cmp at h
    simp only [decide_eq_true_eq, q1, q2, q3] at h
    have hint : ∀ {k len}, len < 8 → DecR.readInt k (IntR.new b len) bs = .done i s rest →
        ∃ n x, bs = x ++ rest ∧ IntIs len n (b :: x) ∧ i = k.make n := by
      intro k len hl h
      unfold DecR.readInt at h
      cases hr : (IntR.new b len).read bs with
      | done n r tl =>
        rw [hr] at h
        cases h
        obtain ⟨x, h1, h2⟩ := int_sound hl hr
        exact ⟨n, x, h1, h2, rfl⟩
      | more r => rw [hr] at h; cases h
      | fail e => rw [hr] at h; cases h
    split at h
    · rename_i hb
      obtain ⟨n, x, rfl, h2, rfl⟩ := hint (by decide) h
      exact ⟨b :: x, rfl, hb, h2⟩
    · split at h
      · rename_i hb
        obtain ⟨n, x, rfl, h2, rfl⟩ := hint (by decide) h
        exact ⟨b :: x, rfl, hb, h2⟩
      · split at h
        · rename_i hb
          obtain ⟨n, x, rfl, h2, rfl⟩ := hint (by decide) h
          exact ⟨b :: x, rfl, hb, h2⟩
        · cases h

/-! ## Instructions that are on their way -/

/-- Instructions are carried out one after the other. -/
def runAll {ι τ : Type} (exec : τ → ι → Except Err τ) (t : τ) : List ι → Except Err τ
  | [] => .ok t
  | i :: is =>
    match exec t i with
    | .error e => .error e
    | .ok t => runAll exec t is

theorem runAll_append {ι τ : Type} {exec : τ → ι → Except Err τ} {t : τ} {a b : List ι} :
    runAll exec t (a ++ b) = match runAll exec t a with
      | .error e => .error e
      | .ok t => runAll exec t b := by
  induction a generalizing t with
  | nil => rfl
  | cons i a ih =>
    simp only [List.cons_append, runAll]
    cases exec t i with
    | error e => rfl
    | ok t => exact ih

/-- The reader in its state, with these bytes, has exactly these instructions, and is then between two. -/
def Holds {σ ι : Type} (read : σ → Bytes → R σ ι) (start s : σ) (bs : Bytes) (is : List ι) : Prop :=
  process read (fun (l : List ι) i => .ok (l ++ [i])) [] s bs = .ok (is, start) ∧
  process read (fun (l : List ι) i => .ok (l ++ [i])) [] s [] = .ok ([], s)

section
variable {σ ι τ : Type} {read : σ → Bytes → R σ ι} {start : σ}

theorem collect_shift (hf : Framing read start) {pre : List ι} : ∀ {l : Nat} {s : σ} {bs : Bytes}, bs.length = l → ∀ a,
    process read (fun (l : List ι) i => .ok (l ++ [i])) (pre ++ a) s bs =
      match process read (fun (l : List ι) i => .ok (l ++ [i])) a s bs with
      | .error e => .error e
      | .ok (x, s') => .ok (pre ++ x, s') := by
  have hs : ∀ l, ∀ bs : Bytes, bs.length = l → ∀ a,
    process read (fun (l : List ι) i => .ok (l ++ [i])) (pre ++ a) start bs =
      match process read (fun (l : List ι) i => .ok (l ++ [i])) a start bs with
      | .error e => .error e
      | .ok (x, s') => .ok (pre ++ x, s') := by
    intro l
    induction l using Nat.strongRecOn with
    | _ l ih =>
      intro bs hl a
      rw [process_eq hf, process_eq hf (t := a)]
      cases hr : read start bs with
      | more s => rfl
      | fail e => rfl
      | done i s rest =>
        have := hf.progress hr
        simp only
        rw [List.append_assoc]
        exact ih rest.length (by omega) rest rfl _
  intro l s bs hl a
  rw [process_eq hf, process_eq hf (t := a)]
  cases hr : read s bs with
  | more s => rfl
  | fail e => rfl
  | done i s rest =>
    simp only
    rw [List.append_assoc]
    exact hs _ rest rfl _

/-- What is on its way decides what will be done. -/
theorem process_collect (hf : Framing read start) {exec : τ → ι → Except Err τ} {bs : Bytes} {s s' : σ} {is : List ι}
    (h : process read (fun (l : List ι) i => .ok (l ++ [i])) [] s bs = .ok (is, s')) (t : τ) :
    process read exec t s bs = match runAll exec t is with
      | .error e => .error e
      | .ok t => .ok (t, s') := by
  have hs : ∀ l, ∀ bs : Bytes, bs.length = l → ∀ is t, process read (fun (l : List ι) i => .ok (l ++ [i])) [] start bs = .ok (is, s') →
      process read exec t start bs = match runAll exec t is with
      | .error e => .error e
      | .ok t => .ok (t, s') := by
    intro l
    induction l using Nat.strongRecOn with
    | _ l ih =>
      intro bs hl is t h
      rw [process_eq hf] at h ⊢
      cases hr : read start bs with
      | more s => rw [hr] at h; cases h; rfl
      | fail e => rw [hr] at h; cases h
      | done i s rest =>
        have := hf.progress hr
        rw [hr] at h
        simp only at h ⊢
        have hc := collect_shift hf (pre := [i]) (s := start) (bs := rest) rfl []
        simp only [List.append_nil, List.nil_append] at hc h
        rw [hc] at h
        cases hp : process read (fun (l : List ι) i => .ok (l ++ [i])) [] start rest with
        | error e => rw [hp] at h; cases h
        | ok x =>
          obtain ⟨x, s''⟩ := x
          rw [hp] at h
          cases h
          simp only [List.cons_append, List.nil_append, runAll]
          cases exec t i with
          | error e => rfl
          | ok t => exact ih rest.length (by omega) rest rfl x t hp
  rw [process_eq hf] at h ⊢
  cases hr : read s bs with
  | more s => rw [hr] at h; cases h; rfl
  | fail e => rw [hr] at h; cases h
  | done i s rest =>
    rw [hr] at h
    simp only at h ⊢
    have hc := collect_shift hf (pre := [i]) (s := start) (bs := rest) rfl []
    simp only [List.append_nil, List.nil_append] at hc h
    rw [hc] at h
    cases hp : process read (fun (l : List ι) i => .ok (l ++ [i])) [] start rest with
    | error e => rw [hp] at h; cases h
    | ok x =>
      obtain ⟨x, s''⟩ := x
      rw [hp] at h
      cases h
      simp only [List.cons_append, List.nil_append, runAll]
      cases exec t i with
      | error e => rfl
      | ok t => exact hs _ rest rfl x t hp

theorem Holds.nil (hf : Framing read start) : Holds read start start [] [] := ⟨process_nil hf, process_nil hf⟩

/-- Nothing is left. -/
theorem Holds.empty {s : σ} {is : List ι} (h : Holds read start s [] is) : is = [] ∧ s = start := by
  obtain ⟨h1, h2⟩ := h
  rw [h1] at h2
  cases h2
  exact ⟨rfl, rfl⟩

/-- More was written. -/
theorem Holds.push (hf : Framing read start) {s : σ} {bs p : Bytes} {is : List ι} {i : ι} (h : Holds read start s bs is)
    (hp : ∀ rest, read start (p ++ rest) = .done i start rest) : Holds read start s (bs ++ p) (is ++ [i]) := by
  obtain ⟨h, h'⟩ := h
  refine ⟨?_, h'⟩
  rw [process_append hf, h]
  simp only
  have := hp []
  rw [List.append_nil] at this
  rw [process_eq hf, this]
  exact process_nil hf

/-- Some of it arrives: the first instructions are carried out. -/
theorem Holds.split (hf : Framing read start) {s : σ} {a b : Bytes} {is : List ι} (h : Holds read start s (a ++ b) is) :
    ∃ s' is1 is2, is = is1 ++ is2 ∧ Holds read start s' b is2 ∧
      ∀ {τ : Type} (exec : τ → ι → Except Err τ) (t : τ), process read exec t s a = match runAll exec t is1 with
        | .error e => .error e
        | .ok t => .ok (t, s') := by
  obtain ⟨h, -⟩ := h
  rw [process_append hf] at h
  cases ha : process read (fun (l : List ι) i => .ok (l ++ [i])) [] s a with
  | error e => rw [ha] at h; cases h
  | ok x =>
    obtain ⟨is1, s'⟩ := x
    rw [ha] at h
    simp only at h
    have hc := collect_shift hf (pre := is1) (s := s') (bs := b) rfl []
    rw [List.append_nil] at hc
    rw [hc] at h
    cases hb : process read (fun (l : List ι) i => .ok (l ++ [i])) [] s' b with
    | error e => rw [hb] at h; cases h
    | ok y =>
      obtain ⟨is2, s''⟩ := y
      rw [hb] at h
      cases h
      have hq : process read (fun (l : List ι) i => .ok (l ++ [i])) [] s' [] = .ok ([], s') := by
        have h1 := process_append hf (exec := fun (l : List ι) i => .ok (l ++ [i])) (t := []) (s := s) (a := a) (b := [])
        rw [List.append_nil, ha] at h1
        simp only at h1
        have h2 := collect_shift hf (pre := is1) (s := s') (bs := []) rfl []
        rw [List.append_nil, ← h1] at h2
        cases h3 : process read (fun (l : List ι) i => .ok (l ++ [i])) [] s' [] with
        | error e => rw [h3] at h2; cases h2
        | ok y =>
          rw [h3] at h2
          obtain ⟨y1, y2⟩ := y
          obtain ⟨h4, rfl⟩ := Prod.mk.inj (Except.ok.inj h2)
          have : y1 = [] := by simpa using h4.symm
          rw [this]
      exact ⟨s', is1, is2, rfl, ⟨hb, hq⟩, fun exec t => process_collect hf ha t⟩

end

end Neqo.Qp
