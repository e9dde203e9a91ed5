import Verif.Qpack.SysProps
import Verif.Lib.Basic

/-! # No bytes make a reader panic -/
namespace Neqo.Qp
open Neqo.Codec Spec

/-- A reader of integers in the middle of its work. -/
def IntR.Ok (r : IntR) : Prop := r.fin = true ∨ ∃ i ≤ 9, r = ⟨r.value, 7 * i, false⟩ ∧ r.value < 2 ^ (7 * i) + 255

theorem int_new_ok (b : UInt8) {len : Nat} (hl : len < 8) : (IntR.new b len).Ok := by
  have hb := b.toNat_lt
  unfold IntR.new
  cases hf : decide (b.toNat &&& firstMax len < firstMax len)
  · right
    refine ⟨0, by omega, rfl, ?_⟩
    have := Nat.mod_le b.toNat (2 ^ (8 - len))
    rw [and_firstMax _ _ hl]
    simp; omega
  · exact Or.inl rfl

theorem int_ok {r : IntR} (h : r.Ok) (bs : Bytes) :
    match r.read bs with | .more r' => r'.Ok | .fail e => e ≠ .panic | .done _ _ _ => True := by
  induction bs generalizing r with
  | nil =>
    rcases h with h | ⟨i, h1, h2, h3⟩
    · rw [read_fin h]; trivial
    · rw [h2]; simp only [IntR.read, Bool.false_eq_true, if_false]
      exact Or.inr ⟨i, h1, rfl, h3⟩
  | cons b bs ih =>
    rcases h with h | ⟨i, h1, h2, h3⟩
    · rw [read_fin h]; trivial
    · rw [h2]
      by_cases h9 : i = 9
      · subst h9
        rw [read_last h3]
        split <;> rename_i heq <;> split at heq <;> cases heq
        · trivial
        · simp
      · rw [read_step (by omega) h3]
        apply ih
        by_cases hlt : b.toNat < 128
        · exact Or.inl (by simpa using hlt)
        · right
          have hp : 2 ^ (7 * (i + 1)) = 128 * 2 ^ (7 * i) := by
            rw [show 7 * (i + 1) = 7 * i + 7 by ring, pow_add]; ring
          have hm : (b.toNat % 128) * 2 ^ (7 * i) ≤ 127 * 2 ^ (7 * i) := Nat.mul_le_mul (by omega) le_rfl
          refine ⟨i + 1, by omega, ?_, by show _ < _; rw [hp]; simp only; omega⟩
          simp; omega

def LitR.Ok (r : LitR) : Prop :=
  match r.st with
  | .readLength i => i.Ok
  | .done => False
  | _ => True

theorem readLit_ok (huff : Bool) (len : Nat) (got bs : Bytes) :
    match LitR.readLit huff len got bs with | .more r' => r'.Ok | .fail e => e ≠ .panic | .done _ _ _ => True := by
  unfold LitR.readLit
  simp only
  by_cases h : (got ++ bs.take (len - got.length)).length = len
  · rw [if_pos h]
    cases huff
    · simp
    · simp only [if_true]
      cases hd : huffDecode (got ++ bs.take (len - got.length)) with
      | ok v => simp
      | error e => simp [decode_err hd]
  · rw [if_neg h]; simp [LitR.Ok]

theorem readLen_ok (huff : Bool) {i : IntR} (hi : i.Ok) (bs : Bytes) :
    match LitR.readLen huff i bs with | .more r' => r'.Ok | .fail e => e ≠ .panic | .done _ _ _ => True := by
  have h := int_ok hi bs
  unfold LitR.readLen
  cases hr : i.read bs with
  | more r => rw [hr] at h; exact h
  | fail e => rw [hr] at h; exact h
  | done v r rest =>
    simp only
    by_cases hv : v ≤ maxLiteral
    · rw [if_pos hv]; exact readLit_ok huff v [] rest
    · rw [if_neg hv]; simp

theorem lit_ok {r : LitR} (h : r.Ok) (bs : Bytes) :
    match r.read bs with | .more r' => r'.Ok | .fail e => e ≠ .panic | .done _ _ _ => True := by
  unfold LitR.read
  cases hs : r.st with
  | readHuffman =>
    cases bs with
    | nil => exact h
    | cons b bs => exact readLen_ok _ (int_new_ok b (by omega)) bs
  | readLength i => unfold LitR.Ok at h; rw [hs] at h; exact readLen_ok _ h bs
  | readLiteral len got => exact readLit_ok ..
  | done => unfold LitR.Ok at h; rw [hs] at h; exact h.elim

theorem fresh_ok : LitR.fresh.Ok := trivial

/-! ## Instructions -/

def EncR.Ok : EncR → Prop
  | .start => True
  | .firstInt _ r => r.Ok
  | .value _ _ r => r.Ok
  | .name r => r.Ok
  | .second _ r => r.Ok

theorem second_ok (n : Bytes) {r : LitR} (h : r.Ok) (bs : Bytes) :
    match EncR.readSecond n r bs with | .more s => s.Ok | .fail e => ¬ e = .panic | .done _ _ _ => True := by
  have := lit_ok h bs
  unfold EncR.readSecond
  cases hr : r.read bs <;> rw [hr] at this <;> exact this

theorem name_ok {r : LitR} (h : r.Ok) (bs : Bytes) :
    match EncR.readName r bs with | .more s => s.Ok | .fail e => ¬ e = .panic | .done _ _ _ => True := by
  have := lit_ok h bs
  unfold EncR.readName
  cases hr : r.read bs with
  | more r => rw [hr] at this; exact this
  | fail e => rw [hr] at this; exact this
  | done n r rest => exact second_ok n fresh_ok rest

theorem value_ok (st : Bool) (i : Nat) {r : LitR} (h : r.Ok) (bs : Bytes) :
    match EncR.readValue st i r bs with | .more s => s.Ok | .fail e => ¬ e = .panic | .done _ _ _ => True := by
  have := lit_ok h bs
  unfold EncR.readValue
  cases hr : r.read bs <;> rw [hr] at this <;> exact this

theorem encInt_ok (k : EncKind) {r : IntR} (h : r.Ok) (bs : Bytes) :
    match EncR.readInt k r bs with | .more s => s.Ok | .fail e => ¬ e = .panic | .done _ _ _ => True := by
  have := int_ok h bs
  unfold EncR.readInt
  cases hr : r.read bs with
  | more r => rw [hr] at this; exact this
  | fail e => rw [hr] at this; exact this
  | done v r rest =>
    cases k with
    | capacity => trivial
    | duplicate => trivial
    | nameRef st => exact value_ok st v fresh_ok rest

theorem enc_ok {s : EncR} (h : s.Ok) (bs : Bytes) :
    match EncR.read s bs with | .more s => s.Ok | .fail e => ¬ e = .panic | .done _ _ _ => True := by
  cases s with
  | start =>
    cases bs with
    | nil => trivial
    | cons b bs =>
      show match EncR.first b bs with | .more s => s.Ok | .fail e => ¬ e = .panic | .done _ _ _ => True
      unfold EncR.first
      by_cases h1 : encoderInsertWithNameRefStatic.cmp b = true
      · rw [if_pos h1]; exact encInt_ok _ (int_new_ok b (by decide)) bs
      rw [if_neg h1]
      by_cases h2 : encoderInsertWithNameRefDynamic.cmp b = true
      · rw [if_pos h2]; exact encInt_ok _ (int_new_ok b (by decide)) bs
      rw [if_neg h2]
      by_cases h3 : encoderInsertWithNameLiteral.cmp b = true
      · rw [if_pos h3]
        have : (LitR.new b encoderInsertWithNameLiteral.len).Ok := by
          unfold LitR.new LitR.Ok; exact int_new_ok b (by decide)
        exact name_ok this bs
      rw [if_neg h3]
      by_cases h4 : encoderCapacity.cmp b = true
      · rw [if_pos h4]; exact encInt_ok _ (int_new_ok b (by decide)) bs
      rw [if_neg h4]
      by_cases h5 : encoderDuplicate.cmp b = true
      · rw [if_pos h5]; exact encInt_ok _ (int_new_ok b (by decide)) bs
      exfalso
      have hb := b.toNat_lt
      obtain ⟨p1, p2, p3, p4, p5⟩ := enc_prefix b.toNat hb
      simp only [Prefix.cmp, decide_eq_true_eq] at h1 h2 h3 h4 h5
      rw [p1] at h1; rw [p2] at h2; rw [p3] at h3; rw [p4] at h4; rw [p5] at h5
      omega
  | firstInt k r => exact encInt_ok k h bs
  | value st i r => exact value_ok st i h bs
  | name r => exact name_ok h bs
  | second n r => exact second_ok n h bs

def DecR.Ok : DecR → Prop
  | .start => True
  | .int _ r => r.Ok

theorem decInt_ok (k : DecKind) {r : IntR} (h : r.Ok) (bs : Bytes) :
    match DecR.readInt k r bs with | .more s => s.Ok | .fail e => ¬ e = .panic | .done _ _ _ => True := by
  have := int_ok h bs
  unfold DecR.readInt
  cases hr : r.read bs <;> rw [hr] at this <;> exact this

theorem dec_ok {s : DecR} (h : s.Ok) (bs : Bytes) :
    match DecR.read s bs with | .more s => s.Ok | .fail e => ¬ e = .panic | .done _ _ _ => True := by
  cases s with
  | start =>
    cases bs with
    | nil => trivial
    | cons b bs =>
      show match DecR.first b bs with | .more s => s.Ok | .fail e => ¬ e = .panic | .done _ _ _ => True
      unfold DecR.first
      by_cases h1 : decoderHeaderAck.cmp b = true
      · rw [if_pos h1]; exact decInt_ok _ (int_new_ok b (by decide)) bs
      rw [if_neg h1]
      by_cases h2 : decoderStreamCancellation.cmp b = true
      · rw [if_pos h2]; exact decInt_ok _ (int_new_ok b (by decide)) bs
      rw [if_neg h2]
      by_cases h3 : decoderInsertCountIncrement.cmp b = true
      · rw [if_pos h3]; exact decInt_ok _ (int_new_ok b (by decide)) bs
      exfalso
      have hb := b.toNat_lt
      obtain ⟨p1, p2, p3⟩ := dec_prefix b.toNat hb
      simp only [Prefix.cmp, decide_eq_true_eq] at h1 h2 h3
      rw [p1] at h1; rw [p2] at h2; rw [p3] at h3
      omega
  | int k r => exact decInt_ok k h bs

/-! ## The table of the decoder -/

theorem getDynamic_np (t : Table) (i b : Nat) (post : Bool) : t.getDynamic i b post ≠ .error .panic := by
  cases post <;>
  · simp only [Table.getDynamic, Bool.false_eq_true, if_false, if_true, Table.getRel]
    repeat' split
    all_goals simp

theorem getStatic_ok (i : Nat) : getStatic i ≠ .error .panic := by
  unfold getStatic
  cases staticTable[i]? <;> simp

theorem execTable_ok {m : Nat} {t : Table} (hw : t.WF) (i : EncInstr) :
    match execTable m t i with | .ok t' => t'.WF ∧ t.base ≤ t'.base | .error e => ¬ e = .panic := by
  have hin : ∀ n v, match insertResult (t.insert n v) with | .ok t' => t'.WF ∧ t.base ≤ t'.base | .error e => ¬ e = .panic := by
    intro n v
    obtain ⟨r, t', k, h1, h2, h3, h4, h5, h6, h7, -⟩ := insert_ok hw n v
    rw [h1]
    cases r with
    | none => simp [insertResult]
    | some j => exact ⟨h2, by have := h7.2.2; omega⟩
  have hd : ∀ j, ∀ f : DEntry → Bytes × Bytes, match insertResult (match t.getDynamic j t.base false with
      | .error e => .error e | .ok d => t.insert (f d).1 (f d).2) with | .ok t' => t'.WF ∧ t.base ≤ t'.base | .error e => ¬ e = .panic := by
    intro j f
    have := getDynamic_np t j t.base false
    cases hg : t.getDynamic j t.base false with
    | ok d => exact hin _ _
    | error e => rw [hg] at this; cases e <;> simp [insertResult] at this ⊢
  cases i with
  | capacity v =>
    unfold execTable
    by_cases hv : v > m
    · simp [hv]
    · simp only [hv, if_false]
      obtain ⟨b, t', k, h1, h2, h3, h4, -⟩ := setCapacity_ok hw v
      rw [h1]
      cases b
      · simp
      · exact ⟨h3, le_of_eq h2.base.symm⟩
  | insertStatic j v =>
    unfold execTable Table.insertWithNameRef
    have := getStatic_ok j
    simp only [if_true]
    cases hg : getStatic j with
    | ok d => exact hin _ _
    | error e => rw [hg] at this; cases e <;> simp [insertResult] at this ⊢
  | insertDynamic j v => exact hd j (fun d => (d.name, v))
  | insertLiteral n v => exact hin n v
  | duplicate j => exact hd j (fun d => (d.name, d.value))

/-! ## Field sections -/

theorem bufInt_ok {len : Nat} (hl : len < 8) (bs : Bytes) : bufInt len bs ≠ .error .panic := by
  cases bs with
  | nil => simp [bufInt]
  | cons b bs =>
    have := int_ok (int_new_ok b hl) bs
    simp only [bufInt]
    cases hr : (IntR.new b len).read bs <;> rw [hr] at this <;> simp_all

theorem bufInt_len {len n : Nat} {bs rest : Bytes} (h : bufInt len bs = .ok (n, rest)) : rest.length < bs.length := by
  cases bs with
  | nil => simp [bufInt] at h
  | cons b bs =>
    simp only [bufInt] at h
    cases hr : (IntR.new b len).read bs with
    | more r => rw [hr] at h; cases h
    | fail e => rw [hr] at h; cases h
    | done v r rest' =>
      rw [hr] at h
      cases h
      have := int_rest hr
      simp only [List.length_cons]; omega

theorem bufLiteral_ok {len : Nat} (hl : len < 7) (bs : Bytes) : bufLiteral len bs ≠ .error .panic := by
  cases bs with
  | nil => simp [bufLiteral]
  | cons b bs =>
    have := bufInt_ok (show len + 1 < 8 by omega) (b :: bs)
    simp only [bufLiteral]
    cases hr : bufInt (len + 1) (b :: bs) with
    | error e => rw [hr] at this; simpa using this
    | ok x =>
      obtain ⟨n, rest⟩ := x
      simp only
      split
      · simp
      · unfold bufSlice
        split
        · rename_i heq; split at heq <;> cases heq; simp
        · rename_i s rest' heq
          split
          · cases hd : huffDecode s with
            | ok v => simp [Except.map]
            | error e => rw [decode_err hd]; simp [Except.map]
          · simp

theorem bufLiteral_len {len : Nat} {v bs rest : Bytes} (h : bufLiteral len bs = .ok (v, rest)) : rest.length < bs.length := by
  cases bs with
  | nil => simp [bufLiteral] at h
  | cons b bs =>
    simp only [bufLiteral] at h
    cases hr : bufInt (len + 1) (b :: bs) with
    | error e => rw [hr] at h; cases h
    | ok x =>
      obtain ⟨n, r⟩ := x
      have h1 := bufInt_len hr
      rw [hr] at h
      simp only at h
      split at h
      · cases h
      · cases hs : bufSlice n r with
        | error e => rw [hs] at h; cases h
        | ok y =>
          obtain ⟨s, r'⟩ := y
          rw [hs] at h
          simp only at h
          unfold bufSlice at hs
          split at hs
          · cases hs
          · cases hs
            split at h
            · cases hd : huffDecode (r.take n) with
              | ok v => rw [hd] at h; cases h; simp; simp at h1; omega
              | error e => rw [hd] at h; cases h
            · cases h; simp; simp at h1; omega

theorem fieldOf_ok (n v : Bytes) : fieldOf n v ≠ .error .panic := by
  unfold fieldOf; split <;> simp

theorem entry_ok (d : HDec) (i : Nat) (post : Bool) : d.entry i post ≠ .error .panic := by
  have := getDynamic_np d.table i d.base post
  unfold HDec.entry
  cases hg : d.table.getDynamic i d.base post with
  | error e => rw [hg] at this; exact this
  | ok e =>
    show (if e.base ≥ d.req then _ else _) ≠ _
    split <;> simp [pure, Except.pure]

theorem bind_ok {α β : Type} {x : Except Err α} {f : α → Except Err β} (h : x ≠ .error .panic)
    (hf : ∀ a, x = .ok a → f a ≠ .error .panic) : (x >>= f) ≠ .error .panic := by
  cases x with
  | error e => simpa [bind, Except.bind] using h
  | ok a => exact hf a rfl

theorem pure_ok {α : Type} (a : α) : (pure a : Except Err α) ≠ .error .panic := by simp [pure, Except.pure]

set_option maxRecDepth 8000 in
theorem readField_ok (d : HDec) (b : UInt8) (bs : Bytes) : d.readField (b :: bs) ≠ .error .panic := by
  simp only [HDec.readField]
  have i1 : ∀ l < 8, ∀ bs, bufInt l bs ≠ .error .panic := fun l hl bs => bufInt_ok hl bs
  have l1 : ∀ l < 7, ∀ bs, bufLiteral l bs ≠ .error .panic := fun l hl bs => bufLiteral_ok hl bs
  have e1 : ∀ post bs, d.readIndexed post bs ≠ .error .panic := by
    intro post bs
    unfold HDec.readIndexed
    exact bind_ok (i1 _ (by cases post <;> decide) _) fun _ _ => bind_ok (entry_ok _ _ _) fun _ _ => bind_ok (fieldOf_ok _ _) fun _ _ => pure_ok _
  have e2 : ∀ post bs, d.readRef post bs ≠ .error .panic := by
    intro post bs
    unfold HDec.readRef
    exact bind_ok (i1 _ (by cases post <;> decide) _) fun _ _ => bind_ok (entry_ok _ _ _) fun _ _ =>
      bind_ok (l1 _ (by decide) _) fun _ _ => bind_ok (fieldOf_ok _ _) fun _ _ => pure_ok _
  by_cases h1 : headerFieldIndexStatic.cmp b = true
  · rw [if_pos h1]
    unfold readIndexedStatic
    exact bind_ok (i1 _ (by decide) _) fun _ _ => bind_ok (getStatic_ok _) fun _ _ => bind_ok (fieldOf_ok _ _) fun _ _ => pure_ok _
  rw [if_neg h1]
  by_cases h2 : headerFieldIndexDynamic.cmp b = true
  · rw [if_pos h2]; exact e1 _ _
  rw [if_neg h2]
  by_cases h3 : headerFieldIndexDynamicPost.cmp b = true
  · rw [if_pos h3]; exact e1 _ _
  rw [if_neg h3]
  by_cases h4 : headerFieldLiteralNameRefStatic.cmp b = true
  · rw [if_pos h4]
    unfold readRefStatic
    exact bind_ok (i1 _ (by decide) _) fun _ _ => bind_ok (getStatic_ok _) fun _ _ => bind_ok (l1 _ (by decide) _) fun _ _ =>
      bind_ok (fieldOf_ok _ _) fun _ _ => pure_ok _
  rw [if_neg h4]
  by_cases h5 : headerFieldLiteralNameRefDynamic.cmp b = true
  · rw [if_pos h5]; exact e2 _ _
  rw [if_neg h5]
  by_cases h6 : headerFieldLiteralNameLiteral.cmp b = true
  · rw [if_pos h6]
    unfold readLitLit
    exact bind_ok (l1 _ (by decide) _) fun _ _ => bind_ok (l1 _ (by decide) _) fun _ _ => bind_ok (fieldOf_ok _ _) fun _ _ => pure_ok _
  rw [if_neg h6]
  by_cases h7 : headerFieldLiteralNameRefDynamicPost.cmp b = true
  · rw [if_pos h7]; exact e2 _ _
  exfalso
  have hall : ∀ b < 256, b &&& headerFieldIndexStatic.mask = headerFieldIndexStatic.pre ∨
    b &&& headerFieldIndexDynamic.mask = headerFieldIndexDynamic.pre ∨
    b &&& headerFieldIndexDynamicPost.mask = headerFieldIndexDynamicPost.pre ∨
    b &&& headerFieldLiteralNameRefStatic.mask = headerFieldLiteralNameRefStatic.pre ∨
    b &&& headerFieldLiteralNameRefDynamic.mask = headerFieldLiteralNameRefDynamic.pre ∨
    b &&& headerFieldLiteralNameLiteral.mask = headerFieldLiteralNameLiteral.pre ∨
    b &&& headerFieldLiteralNameRefDynamicPost.mask = headerFieldLiteralNameRefDynamicPost.pre := by decide +kernel
  simp only [Prefix.cmp, decide_eq_true_eq] at h1 h2 h3 h4 h5 h6 h7
  rcases hall b.toNat b.toNat_lt with h | h | h | h | h | h | h <;> contradiction

theorem readField_len {d : HDec} {bs rest : Bytes} {f : Field} (h : d.readField bs = .ok (f, rest)) : rest.length < bs.length := by
  cases bs with
  | nil => simp [HDec.readField] at h
  | cons b bs =>
    have e1 : ∀ post, d.readIndexed post (b :: bs) = .ok (f, rest) → rest.length < (b :: bs).length := by
      intro post h
      unfold HDec.readIndexed at h
      simp only [Except.bind_eq_ok, Except.pure_eq_ok] at h
      obtain ⟨x, h1, e, -, g, -, h2⟩ := h
      cases h2
      exact bufInt_len h1
    have e2 : ∀ post, d.readRef post (b :: bs) = .ok (f, rest) → rest.length < (b :: bs).length := by
      intro post h
      unfold HDec.readRef at h
      simp only [Except.bind_eq_ok, Except.pure_eq_ok] at h
      obtain ⟨x, h1, e, -, y, h3, g, -, h2⟩ := h
      cases h2
      exact lt_trans (bufLiteral_len h3) (bufInt_len h1)
    simp only [HDec.readField] at h
    split at h
    · unfold readIndexedStatic at h
      simp only [Except.bind_eq_ok, Except.pure_eq_ok] at h
      obtain ⟨x, h1, e, -, g, -, h2⟩ := h
      cases h2
      exact bufInt_len h1
    split at h
    · exact e1 _ h
    split at h
    · exact e1 _ h
    split at h
    · unfold readRefStatic at h
      simp only [Except.bind_eq_ok, Except.pure_eq_ok] at h
      obtain ⟨x, h1, e, -, y, h3, g, -, h2⟩ := h
      cases h2
      exact lt_trans (bufLiteral_len h3) (bufInt_len h1)
    split at h
    · exact e2 _ h
    split at h
    · unfold readLitLit at h
      simp only [Except.bind_eq_ok, Except.pure_eq_ok] at h
      obtain ⟨x, h1, y, h3, g, -, h2⟩ := h
      cases h2
      exact lt_trans (bufLiteral_len h3) (bufLiteral_len h1)
    split at h
    · exact e2 _ h
    · cases h

theorem readFields_ok (d : HDec) : ∀ (n remaining : Nat) (bs : Bytes), bs.length ≤ n → d.readFields n remaining bs ≠ .error .panic
  | _, _, [], _ => by simp [HDec.readFields]
  | 0, _, _ :: _, h => by simp at h
  | n + 1, remaining, b :: bs, h => by
    have h1 := readField_ok d b bs
    simp only [HDec.readFields]
    cases hf : d.readField (b :: bs) with
    | error e => rw [hf] at h1; simpa using h1
    | ok x =>
      obtain ⟨f, rest⟩ := x
      have h2 := readField_len hf
      simp only [List.length_cons] at h h2
      simp only
      split
      · simp
      · have := readFields_ok d n (remaining - (f.1.length + f.2.length + entryOverhead)) rest (by omega)
        cases hr : d.readFields n (remaining - (f.1.length + f.2.length + entryOverhead)) rest with
        | error e => rw [hr] at this; simpa using this
        | ok fs => simp

theorem decodeBlock_ok (t : Table) (m : Nat) (bs : Bytes) :
    match decodeBlock t m bs with | .ok (.headers req _) => req ≤ t.base | .ok (.blocked _) => True | .error e => e ≠ .panic := by
  unfold decodeBlock
  cases hb : readBase m t.base bs with
  | error e => simp
  | ok x =>
    obtain ⟨req, base, rest⟩ := x
    simp only
    by_cases h : t.base < req
    · rw [if_pos h]; trivial
    · rw [if_neg h]
      have := readFields_ok ⟨t, req, base⟩ rest.length maxLiteral rest le_rfl
      cases hf : HDec.readFields ⟨t, req, base⟩ rest.length maxLiteral rest with
      | ok fs => simp only; omega
      | error e => rw [hf] at this; cases e <;> simp at this ⊢

end Neqo.Qp
