import Verif.Qpack.Unique
import Verif.Qpack.Instr

/-! # Reading instructions -/
namespace Neqo.Qp
open Neqo.Codec Spec

/-- A reader of instructions: it does not matter how bytes are cut in pieces, after an instruction it starts
again, and an instruction takes at least a byte. -/
structure Framing {σ ι : Type} (read : σ → Bytes → R σ ι) (start : σ) : Prop where
  resumable : Resumable read
  next : ∀ {s bs i s' rest}, read s bs = .done i s' rest → s' = start ∧ rest.length ≤ bs.length
  progress : ∀ {bs i s' rest}, read start bs = .done i s' rest → rest.length < bs.length
  idle : read start [] = .more start

section
variable {σ ι τ : Type} {read : σ → Bytes → R σ ι} {start : σ} {exec : τ → ι → Except Err τ}

theorem fuel_start (hf : Framing read start) {n m : Nat} {t : τ} {bs : Bytes} (hn : bs.length < n) (hm : bs.length < m) :
    drive read exec n t start bs = drive read exec m t start bs := by
  generalize hl : bs.length = l at hn hm
  induction l using Nat.strongRecOn generalizing n m t bs with
  | _ l ih =>
    cases n with
    | zero => omega
    | succ n =>
      cases m with
      | zero => omega
      | succ m =>
        simp only [drive]
        cases hr : read start bs with
        | more s => rfl
        | fail e => rfl
        | done i s rest =>
          have h1 := hf.progress hr
          obtain ⟨rfl, -⟩ := hf.next hr
          simp only
          cases exec t i with
          | error e => rfl
          | ok t' => exact ih rest.length (by omega) rfl (by omega) (by omega)

theorem process_eq (hf : Framing read start) {t : τ} {s : σ} {bs : Bytes} :
    process read exec t s bs =
      match read s bs with
      | .more s => .ok (t, s)
      | .fail e => .error e
      | .done i _ rest =>
        match exec t i with
        | .error e => .error e
        | .ok t => process read exec t start rest := by
  conv => lhs; unfold process; simp only [drive]
  cases hr : read s bs with
  | more s => rfl
  | fail e => rfl
  | done i s' rest =>
    obtain ⟨rfl, h1⟩ := hf.next hr
    simp only
    cases exec t i with
    | error e => rfl
    | ok t' => exact fuel_start (n := bs.length + 1) (m := rest.length + 2) hf (by omega) (by omega)

/-- What every instruction preserves, all of them preserve; an error that none of them has does not happen. -/
theorem process_ind (hf : Framing read start) {J : τ → Prop} {A : σ → Prop} {bad : Err → Prop}
    (he : ∀ t i, J t → match exec t i with | .ok t' => J t' | .error e => ¬ bad e)
    (hr : ∀ s bs, A s → match read s bs with | .more s' => A s' | .fail e => ¬ bad e | .done _ _ _ => True)
    (h0 : A start) : ∀ {bs : Bytes} {t : τ} {s : σ}, J t → A s →
    match process read exec t s bs with | .ok (t', s') => J t' ∧ A s' | .error e => ¬ bad e := by
  have hs : ∀ l, ∀ bs : Bytes, bs.length = l → ∀ t : τ, J t →
      match process read exec t start bs with | .ok (t', s') => J t' ∧ A s' | .error e => ¬ bad e := by
    intro l
    induction l using Nat.strongRecOn with
    | _ l ih =>
      intro bs hl t ht
      rw [process_eq hf]
      have h1 := hr start bs h0
      cases hb : read start bs with
      | more s => rw [hb] at h1; exact ⟨ht, h1⟩
      | fail e => rw [hb] at h1; exact h1
      | done i s rest =>
        have := hf.progress hb
        have h2 := he t i ht
        simp only
        cases hx : exec t i with
        | error e => rw [hx] at h2; exact h2
        | ok t' => rw [hx] at h2; exact ih _ (by omega) rest rfl t' h2
  intro bs t s ht hA
  rw [process_eq hf]
  have h1 := hr s bs hA
  cases hb : read s bs with
  | more s => rw [hb] at h1; exact ⟨ht, h1⟩
  | fail e => rw [hb] at h1; exact h1
  | done i s rest =>
    have h2 := he t i ht
    simp only
    cases hx : exec t i with
    | error e => rw [hx] at h2; exact h2
    | ok t' => rw [hx] at h2; exact hs _ rest rfl t' h2

/-- It does not matter how the bytes of a stream were cut in two. -/
theorem process_append (hf : Framing read start) {t : τ} {s : σ} {a b : Bytes} :
    process read exec t s (a ++ b) =
      match process read exec t s a with
      | .error e => .error e
      | .ok (t, s) => process read exec t s b := by
  have hstart : ∀ l, ∀ a : Bytes, a.length = l → ∀ t : τ, process read exec t start (a ++ b) =
      match process read exec t start a with
      | .error e => .error e
      | .ok (t, s) => process read exec t s b := by
    intro l
    induction l using Nat.strongRecOn with
    | _ l ih =>
      intro a ha t
      rw [process_eq hf (bs := a ++ b), process_eq hf (bs := a), hf.resumable start a b]
      cases hr : read start a with
      | more s =>
        simp only [R.resume]
        rw [process_eq hf]
      | fail e => rfl
      | done i s' rest =>
        have h1 := hf.progress hr
        simp only [R.resume]
        cases exec t i with
        | error e => rfl
        | ok t' => exact ih rest.length (by omega) rest rfl t'
  rw [process_eq hf (bs := a ++ b), process_eq hf (bs := a), hf.resumable s a b]
  cases hr : read s a with
  | more s =>
    simp only [R.resume]
    rw [process_eq hf]
  | fail e => rfl
  | done i s' rest =>
    simp only [R.resume]
    cases exec t i with
    | error e => rfl
    | ok t' => exact hstart _ rest rfl t'

theorem process_nil (hf : Framing read start) {t : τ} : process read exec t start [] = .ok (t, start) := by
  rw [process_eq hf, hf.idle]

end

/-! ## How many bytes are left -/

theorem int_rest {r r' : IntR} {bs rest : Bytes} {v : Nat} (h : r.read bs = .done v r' rest) : rest.length ≤ bs.length := by
  induction bs generalizing r with
  | nil =>
    unfold IntR.read at h
    split at h
    · cases h; omega
    · cases h
  | cons b bs ih =>
    unfold IntR.read at h
    split at h
    · cases h; omega
    · split at h
      · cases h
      · split at h
        · cases h
        · simp only at h
          split at h
          · cases h
          · have := ih h; simp; omega

theorem readLit_rest {huff : Bool} {len : Nat} {got bs rest v : Bytes} {r : LitR} (h : LitR.readLit huff len got bs = .done v r rest) :
    rest.length ≤ bs.length := by
  unfold LitR.readLit at h
  simp only at h
  split at h
  · split at h
    · split at h
      · cases h; simp
      · cases h
    · cases h; simp
  · cases h

theorem readLen_rest {huff : Bool} {i : IntR} {bs rest v : Bytes} {r : LitR} (h : LitR.readLen huff i bs = .done v r rest) :
    rest.length ≤ bs.length := by
  unfold LitR.readLen at h
  split at h
  · rename_i hr
    split at h
    · exact le_trans (readLit_rest h) (int_rest hr)
    · cases h
  · cases h
  · cases h

theorem lit_rest {s r : LitR} {bs rest v : Bytes} (h : s.read bs = .done v r rest) : rest.length ≤ bs.length := by
  obtain ⟨st, huff⟩ := s
  cases st with
  | readHuffman =>
    cases bs with
    | nil => cases h
    | cons b bs => have := readLen_rest h; simp; omega
  | readLength i => exact readLen_rest h
  | readLiteral len got => exact readLit_rest h
  | done => cases h

/-! ## The encoder's instructions -/

theorem second_resume (n : Bytes) (r : LitR) (a b : Bytes) :
    EncR.readSecond n r (a ++ b) = (EncR.readSecond n r a).resume EncR.read b := by
  unfold EncR.readSecond
  rw [lit_resumable r a b]
  cases r.read a <;> rfl

theorem value_resume (st : Bool) (i : Nat) (r : LitR) (a b : Bytes) :
    EncR.readValue st i r (a ++ b) = (EncR.readValue st i r a).resume EncR.read b := by
  unfold EncR.readValue
  rw [lit_resumable r a b]
  cases r.read a <;> rfl

theorem name_resume (r : LitR) (a b : Bytes) :
    EncR.readName r (a ++ b) = (EncR.readName r a).resume EncR.read b := by
  unfold EncR.readName
  rw [lit_resumable r a b]
  cases r.read a with
  | done n s rest => exact second_resume ..
  | more s => rfl
  | fail e => rfl

theorem encInt_resume (k : EncKind) (r : IntR) (a b : Bytes) :
    EncR.readInt k r (a ++ b) = (EncR.readInt k r a).resume EncR.read b := by
  unfold EncR.readInt
  rw [int_resumable r a b]
  cases r.read a with
  | done n s rest =>
    cases k with
    | nameRef st => exact value_resume ..
    | capacity => rfl
    | duplicate => rfl
  | more s => rfl
  | fail e => rfl

theorem encFirst_resume (x : UInt8) (a b : Bytes) : EncR.first x (a ++ b) = (EncR.first x a).resume EncR.read b := by
  unfold EncR.first
  split
  · exact encInt_resume ..
  · split
    · exact encInt_resume ..
    · split
      · exact name_resume ..
      · split
        · exact encInt_resume ..
        · split
          · exact encInt_resume ..
          · rfl

theorem second_rest {n : Bytes} {r : LitR} {bs rest : Bytes} {i : EncInstr} {s : EncR} (h : EncR.readSecond n r bs = .done i s rest) :
    s = .start ∧ rest.length ≤ bs.length := by
  unfold EncR.readSecond at h
  cases hr : r.read bs <;> rw [hr] at h <;> cases h
  exact ⟨rfl, lit_rest hr⟩

theorem value_rest {st : Bool} {j : Nat} {r : LitR} {bs rest : Bytes} {i : EncInstr} {s : EncR}
    (h : EncR.readValue st j r bs = .done i s rest) : s = .start ∧ rest.length ≤ bs.length := by
  unfold EncR.readValue at h
  cases hr : r.read bs <;> rw [hr] at h <;> cases h
  exact ⟨rfl, lit_rest hr⟩

theorem name_rest {r : LitR} {bs rest : Bytes} {i : EncInstr} {s : EncR} (h : EncR.readName r bs = .done i s rest) :
    s = .start ∧ rest.length ≤ bs.length := by
  unfold EncR.readName at h
  cases hr : r.read bs with
  | done v q tl =>
    rw [hr] at h
    have h1 := second_rest h
    exact ⟨h1.1, le_trans h1.2 (lit_rest hr)⟩
  | more q => rw [hr] at h; cases h
  | fail e => rw [hr] at h; cases h

theorem encInt_rest {k : EncKind} {r : IntR} {bs rest : Bytes} {i : EncInstr} {s : EncR}
    (h : EncR.readInt k r bs = .done i s rest) : s = .start ∧ rest.length ≤ bs.length := by
  unfold EncR.readInt at h
  cases hr : r.read bs with
  | done v q tl =>
    rw [hr] at h
    have h0 := int_rest hr
    cases k with
    | nameRef st =>
      have h1 := value_rest h
      exact ⟨h1.1, le_trans h1.2 h0⟩
    | capacity => cases h; exact ⟨rfl, h0⟩
    | duplicate => cases h; exact ⟨rfl, h0⟩
  | more q => rw [hr] at h; cases h
  | fail e => rw [hr] at h; cases h

theorem encFirst_rest {x : UInt8} {bs rest : Bytes} {i : EncInstr} {s : EncR}
    (h : EncR.first x bs = .done i s rest) : s = .start ∧ rest.length ≤ bs.length := by
  unfold EncR.first at h
  split at h
  · exact encInt_rest h
  · split at h
    · exact encInt_rest h
    · split at h
      · exact name_rest h
      · split at h
        · exact encInt_rest h
        · split at h
          · exact encInt_rest h
          · cases h

theorem enc_framing : Framing EncR.read .start where
  resumable := by
    intro s a b
    cases s with
    | start =>
      cases a with
      | nil => rfl
      | cons x xs => exact encFirst_resume ..
    | firstInt k r => exact encInt_resume ..
    | value st i r => exact value_resume ..
    | name r => exact name_resume ..
    | second n r => exact second_resume ..
  next := by
    intro s bs i s' rest h
    cases s with
    | start =>
      cases bs with
      | nil => cases h
      | cons x xs => have := encFirst_rest h; exact ⟨this.1, by simp; omega⟩
    | firstInt k r => exact encInt_rest h
    | value st i r => exact value_rest h
    | name r => exact name_rest h
    | second n r => exact second_rest h
  progress := by
    intro bs i s' rest h
    cases bs with
    | nil => cases h
    | cons x xs => have := encFirst_rest h; simp; omega
  idle := rfl

/-! ## The decoder's instructions -/

theorem decInt_resume (k : DecKind) (r : IntR) (a b : Bytes) :
    DecR.readInt k r (a ++ b) = (DecR.readInt k r a).resume DecR.read b := by
  unfold DecR.readInt
  rw [int_resumable r a b]
  cases r.read a <;> rfl

theorem decFirst_resume (x : UInt8) (a b : Bytes) : DecR.first x (a ++ b) = (DecR.first x a).resume DecR.read b := by
  unfold DecR.first
  split
  · exact decInt_resume ..
  · split
    · exact decInt_resume ..
    · split
      · exact decInt_resume ..
      · rfl

theorem decInt_rest {k : DecKind} {r : IntR} {bs rest : Bytes} {i : DecInstr} {s : DecR}
    (h : DecR.readInt k r bs = .done i s rest) : s = .start ∧ rest.length ≤ bs.length := by
  unfold DecR.readInt at h
  cases hr : r.read bs <;> rw [hr] at h <;> cases h
  exact ⟨rfl, int_rest hr⟩

theorem decFirst_rest {x : UInt8} {bs rest : Bytes} {i : DecInstr} {s : DecR}
    (h : DecR.first x bs = .done i s rest) : s = .start ∧ rest.length ≤ bs.length := by
  unfold DecR.first at h
  split at h
  · exact decInt_rest h
  · split at h
    · exact decInt_rest h
    · split at h
      · exact decInt_rest h
      · cases h

theorem dec_framing : Framing DecR.read .start where
  resumable := by
    intro s a b
    cases s with
    | start =>
      cases a with
      | nil => rfl
      | cons x xs => exact decFirst_resume ..
    | int k r => exact decInt_resume ..
  next := by
    intro s bs i s' rest h
    cases s with
    | start =>
      cases bs with
      | nil => cases h
      | cons x xs => have := decFirst_rest h; exact ⟨this.1, by simp; omega⟩
    | int k r => exact decInt_rest h
  progress := by
    intro bs i s' rest h
    cases bs with
    | nil => cases h
    | cons x xs => have := decFirst_rest h; simp; omega
  idle := rfl

/-! ## What instructions look like -/

theorem enc_prefix : ∀ b < 256,
    (b &&& encoderInsertWithNameRefStatic.mask = encoderInsertWithNameRefStatic.pre ↔ b / 2 ^ (8 - 2) = 3) ∧
    (b &&& encoderInsertWithNameRefDynamic.mask = encoderInsertWithNameRefDynamic.pre ↔ b / 2 ^ (8 - 2) = 2) ∧
    (b &&& encoderInsertWithNameLiteral.mask = encoderInsertWithNameLiteral.pre ↔ b / 2 ^ (8 - 2) = 1) ∧
    (b &&& encoderCapacity.mask = encoderCapacity.pre ↔ b / 2 ^ (8 - 3) = 1) ∧
    (b &&& encoderDuplicate.mask = encoderDuplicate.pre ↔ b / 2 ^ (8 - 3) = 0) := by decide +kernel

theorem dec_prefix : ∀ b < 256,
    (b &&& decoderHeaderAck.mask = decoderHeaderAck.pre ↔ b / 2 ^ (8 - 1) = 1) ∧
    (b &&& decoderStreamCancellation.mask = decoderStreamCancellation.pre ↔ b / 2 ^ (8 - 2) = 1) ∧
    (b &&& decoderInsertCountIncrement.mask = decoderInsertCountIncrement.pre ↔ b / 2 ^ (8 - 2) = 0) := by decide +kernel

end Neqo.Qp
