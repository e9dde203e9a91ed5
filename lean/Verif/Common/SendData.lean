import Verif.Codec.Model

/-!
# Data that the programs send on streams: C127

`SendData` of the crate `neqo-bin`: a response, or any number of zeros, is handed to a stream piece by piece as the
stream has room.
-/
namespace Neqo.SendData
open Neqo.Codec

/-! ## The model -/

/-- `SendData` (neqo-bin/src/send_data.rs:12-17). -/
structure SendData where
  data : Bytes
  offset : Nat
  remaining : Nat
  total : Nat
deriving Repr, DecidableEq

/-- `STREAM_IO_BUFFER_SIZE` (neqo-bin/src/lib.rs:31). -/
def bufferSize : Nat := 32768

/-- `From<Vec<u8>>` (neqo-bin/src/send_data.rs:26-34), and with it `From<&[u8]>` and `From<&str>` (19-23, 37-41). -/
def ofBytes (d : Bytes) : SendData := { data := d, offset := 0, remaining := d.length, total := d.length }

/-- `zeroes` (neqo-bin/src/send_data.rs:44-52). -/
def zeroes (n : Nat) : SendData := { data := List.replicate bufferSize 0, offset := 0, remaining := n, total := n }

/-- `slice` (neqo-bin/src/send_data.rs:54-57); `none` is a panic. -/
def slice (s : SendData) : Option Bytes :=
  let stop := min s.data.length (s.offset + s.remaining)
  if s.offset ≤ stop then some ((s.data.take stop).drop s.offset) else none

/-- What the function that sends does when it is called: an error, or it takes as much as there is room for (`room 0`:
nothing). It never takes more than it is given. -/
inductive Reply where
  | err
  | room (n : Nat)
deriving Repr, DecidableEq

/-- `SendResult` (neqo-bin/src/send_data.rs:87-94), a panic, or that no reply is left. -/
inductive Res where
  | done | more | closed | panic | noReply
deriving Repr, DecidableEq

/-- `send` (neqo-bin/src/send_data.rs:63-78): the result, the new state, and the pieces that the stream was offered, each
with what it took of it. The subtraction and the remainder panic as in the code. -/
def send (s : SendData) : List Reply → Res × SendData × List (Bytes × Bytes)
  | rs =>
    if s.remaining > 0 then
      match slice s with
      | none => (.panic, s, [])
      | some b =>
        match rs with
        | [] => (.noReply, s, [])
        | .err :: _ => (.closed, s, [(b, [])])
        | .room k :: rs =>
          let sent := min k b.length
          if sent = 0 then (.more, s, [(b, [])])
          else if s.remaining < sent then (.panic, s, [])
          else if s.data.length = 0 then (.panic, s, [])
          else
            let r := send { s with remaining := s.remaining - sent, offset := (s.offset + sent) % s.data.length } rs
            (r.1, r.2.1, (b, b.take sent) :: r.2.2)
    else (.done, s, [])

/-- `len` (neqo-bin/src/send_data.rs:80-82). -/
def len (s : SendData) : Nat := s.total

/-! ## The specification -/

/-- All that a stream took. -/
def taken (l : List (Bytes × Bytes)) : Bytes := (l.map (·.2)).flatten

/-- The states of data `whole` after any number of calls, in which the stream took `acc`. -/
inductive After (whole : Bytes) : Bytes → SendData → Prop
  | bytes : After whole [] (ofBytes whole)
  | zeroes {n : Nat} : whole = List.replicate n 0 → After whole [] (zeroes n)
  | call {acc : Bytes} {s : SendData} (rs : List Reply) : After whole acc s →
      After whole (acc ++ taken (send s rs).2.2) (send s rs).2.1

/-! ## Lemmas -/

/-- What is still to be sent is in the data, or all is zeros. -/
structure Inv (whole acc : Bytes) (s : SendData) : Prop where
  left : ∃ rest, whole = acc ++ rest ∧ rest.length = s.remaining ∧
    ((s.remaining > 0 → s.offset < s.data.length ∧ s.data.drop s.offset = rest) ∨
     (s.data.length > 0 ∧ s.offset < s.data.length ∧ (∀ x ∈ s.data, x = 0) ∧ ∀ x ∈ rest, x = 0))
  total : s.total = whole.length

theorem all_zero {l m : Bytes} (h1 : ∀ x ∈ l, x = 0) (h2 : ∀ x ∈ m, x = 0) (h : l.length = m.length) : l = m := by
  rw [List.eq_replicate_of_mem h1, List.eq_replicate_of_mem h2, h]

theorem slice_inv {whole acc : Bytes} {s : SendData} (h : Inv whole acc s) (hr : s.remaining > 0) :
    ∃ b rest, slice s = some (b) ∧ b ≠ [] ∧ b.length ≤ s.remaining ∧ whole = acc ++ (b ++ rest) ∧
      s.offset + b.length ≤ s.data.length := by
  obtain ⟨rest, h1, h2, h3⟩ := h.left
  have hoff : s.offset < s.data.length := by
    rcases h3 with h3 | h3
    · exact (h3 hr).1
    · exact h3.2.1
  have hs : slice s = some ((s.data.take (min s.data.length (s.offset + s.remaining))).drop s.offset) := by
    unfold slice
    dsimp only
    rw [if_pos (by omega)]
  have hl : ((s.data.take (min s.data.length (s.offset + s.remaining))).drop s.offset).length =
      min s.data.length (s.offset + s.remaining) - s.offset := by
    rw [List.length_drop, List.length_take]
    omega
  refine ⟨_, rest.drop (min s.data.length (s.offset + s.remaining) - s.offset), hs, ?_, by omega, ?_, by omega⟩
  · intro h0
    rw [h0] at hl
    simp only [List.length_nil] at hl
    omega
  · rw [h1]
    congr 1
    conv => lhs; rw [← List.take_append_drop (min s.data.length (s.offset + s.remaining) - s.offset) rest]
    congr 1
    rcases h3 with h3 | h3
    · rw [← (h3 hr).2, List.drop_take]
    · apply all_zero
      · intro x hx
        exact h3.2.2.2 x (List.mem_of_mem_take hx)
      · intro x hx
        exact h3.2.2.1 x (List.mem_of_mem_take (List.mem_of_mem_drop hx))
      · rw [hl, List.length_take]
        omega

theorem step_inv {whole acc b : Bytes} {s : SendData} {n : Nat} (h : Inv whole acc s) (hr : s.remaining > 0)
    (hb : slice s = some b) (hn : n ≤ b.length) (h0 : n ≠ 0) :
    Inv whole (acc ++ b.take n) { s with remaining := s.remaining - n, offset := (s.offset + n) % s.data.length } := by
  obtain ⟨b', rest', g1, g2, g3, g4, g5⟩ := slice_inv h hr
  rw [hb] at g1
  cases g1
  obtain ⟨rest, h1, h2, h3⟩ := h.left
  have e : rest = b ++ rest' := List.append_cancel_left (h1.symm.trans g4)
  refine ⟨⟨b.drop n ++ rest', ?_, ?_, ?_⟩, h.total⟩
  · rw [g4, List.append_assoc, ← List.append_assoc (b.take n), List.take_append_drop]
  · rw [e, List.length_append] at h2
    rw [List.length_append, List.length_drop]
    dsimp only
    omega
  · dsimp only
    rcases h3 with h3 | h3
    · left
      intro hr'
      obtain ⟨k1, k2⟩ := h3 hr
      have hl : s.data.length = s.offset + s.remaining := by
        have := congrArg List.length k2
        rw [List.length_drop, h2] at this
        omega
      rw [Nat.mod_eq_of_lt (by omega)]
      refine ⟨by omega, ?_⟩
      rw [← List.drop_drop, k2, e, List.drop_append_of_le_length hn]
    · right
      refine ⟨h3.1, Nat.mod_lt _ h3.1, h3.2.2.1, ?_⟩
      intro x hx
      apply h3.2.2.2 x
      rw [e]
      rcases List.mem_append.mp hx with hx | hx
      · exact List.mem_append_left _ (List.mem_of_mem_drop hx)
      · exact List.mem_append_right _ hx

theorem taken_cons {b c : Bytes} {l : List (Bytes × Bytes)} : taken ((b, c) :: l) = c ++ taken l := rfl

theorem send_inv {whole : Bytes} : ∀ {rs : List Reply} {acc : Bytes} {s : SendData}, Inv whole acc s →
    Inv whole (acc ++ taken (send s rs).2.2) (send s rs).2.1 ∧ (send s rs).1 ≠ .panic ∧
    ((send s rs).1 = .done ↔ (send s rs).2.1.remaining = 0) ∧ (∀ p ∈ (send s rs).2.2, p.1 ≠ [] ∧ p.2 <+: p.1) ∧
    ((send s rs).1 = .closed → .err ∈ rs) ∧ ((send s rs).1 = .more → .room 0 ∈ rs)
  | rs, acc, s, h => by
    by_cases hr : s.remaining > 0
    · obtain ⟨b, rest, g1, g2, g3, g4, g5⟩ := slice_inv h hr
      have hb : 0 < b.length := List.length_pos_iff.mpr g2
      match rs with
      | [] =>
        rw [send, if_pos hr, g1]
        exact ⟨by simpa [taken] using h, by simp, by simp; omega, by simp, by simp, by simp⟩
      | .err :: rs =>
        rw [send, if_pos hr, g1]
        exact ⟨by simpa [taken] using h, by simp, by simp; omega, by simpa using g2, by simp, by simp⟩
      | .room k :: rs =>
        rw [send, if_pos hr, g1]
        dsimp only
        by_cases hk : min k b.length = 0
        · rw [if_pos hk]
          have : k = 0 := by omega
          exact ⟨by simpa [taken] using h, by simp, by simp; omega, by simpa using g2, by simp, by simp [this]⟩
        · rw [if_neg hk, if_neg (by omega), if_neg (by omega)]
          obtain ⟨i1, i2, i3, i4, i5, i6⟩ := send_inv (rs := rs) (step_inv h hr g1 (n := min k b.length) (by omega) hk)
          dsimp only
          refine ⟨?_, i2, i3, ?_, fun hh => .tail _ (i5 hh), fun hh => .tail _ (i6 hh)⟩
          · rw [taken_cons, ← List.append_assoc]
            exact i1
          · intro p hp
            rcases List.mem_cons.mp hp with rfl | hp
            · exact ⟨g2, List.take_prefix _ _⟩
            · exact i4 p hp
    · rw [send, if_neg hr]
      exact ⟨by simpa [taken] using h, by simp, by simp; omega, by simp, by simp, by simp⟩

theorem after_inv {whole acc : Bytes} {s : SendData} (h : After whole acc s) : Inv whole acc s := by
  induction h with
  | bytes =>
    refine ⟨⟨whole, rfl, rfl, .inl fun hr => ?_⟩, rfl⟩
    exact ⟨hr, rfl⟩
  | zeroes hw =>
    rename_i n
    refine ⟨⟨whole, rfl, by simp [hw, zeroes], .inr ⟨?_, ?_, ?_, ?_⟩⟩, by simp [hw, zeroes]⟩
    · show 0 < (List.replicate bufferSize (0 : UInt8)).length
      rw [List.length_replicate]
      decide
    · show 0 < (List.replicate bufferSize (0 : UInt8)).length
      rw [List.length_replicate]
      decide
    · intro x hx
      exact List.eq_of_mem_replicate hx
    · rw [hw]
      intro x hx
      exact List.eq_of_mem_replicate hx
  | call rs _ ih => exact (send_inv ih).1

/-! ## The theorems -/

/-- After any calls before, a call of `send` does not panic; what the stream took in all is the start of the data, and all
of it exactly if the result is `done`. -/
theorem C127_in_order {whole acc : Bytes} {s : SendData} (h : After whole acc s) (rs : List Reply) :
    (send s rs).1 ≠ .panic ∧ acc ++ taken (send s rs).2.2 <+: whole ∧
    ((send s rs).1 = .done ↔ acc ++ taken (send s rs).2.2 = whole) := by
  obtain ⟨h1, h2, h3, -⟩ := send_inv (rs := rs) (after_inv h)
  obtain ⟨rest, e1, e2, -⟩ := h1.left
  refine ⟨h2, ⟨rest, e1.symm⟩, h3.trans ?_⟩
  constructor
  · intro h0
    rw [h0] at e2
    rw [e1, List.length_eq_zero_iff.mp e2, List.append_nil]
  · intro h0
    have := congrArg List.length e1
    rw [← h0, List.length_append (bs := rest)] at this
    omega

/-- The stream is never offered an empty piece, and no piece that goes beyond the data. -/
theorem C127_offers {whole acc : Bytes} {s : SendData} (h : After whole acc s) (rs : List Reply) :
    ∀ l p r, (send s rs).2.2 = l ++ p :: r → p.1 ≠ [] ∧ acc ++ taken l ++ p.1 <+: whole := by
  have key : ∀ {rs : List Reply} {acc : Bytes} {s : SendData}, Inv whole acc s → ∀ l p r, (send s rs).2.2 = l ++ p :: r →
      p.1 ≠ [] ∧ acc ++ taken l ++ p.1 <+: whole := by
    intro rs
    induction rs with
    | nil =>
      intro acc s h l p r hp
      rw [send] at hp
      split at hp
      · obtain ⟨b, rest, g1, -⟩ := slice_inv h ‹_›
        rw [g1] at hp
        simp at hp
      · simp at hp
    | cons y rs ih =>
      intro acc s h l p r hp
      rw [send] at hp
      split at hp
      · obtain ⟨b, rest, g1, g2, g3, g4, g5⟩ := slice_inv h ‹_›
        have hb : 0 < b.length := List.length_pos_iff.mpr g2
        have one : ∀ c, p = (b, c) → l = [] → p.1 ≠ [] ∧ acc ++ taken l ++ p.1 <+: whole := by
          rintro c rfl rfl
          refine ⟨g2, rest, ?_⟩
          simp [taken, g4]
        rw [g1] at hp
        cases y with
        | err =>
          cases l with
          | nil => simp at hp; exact one _ hp.1.symm rfl
          | cons q l => simp at hp
        | room k =>
          dsimp only at hp
          split at hp
          · cases l with
            | nil => simp at hp; exact one _ hp.1.symm rfl
            | cons q l => simp at hp
          · rename_i hk
            rw [if_neg (by omega), if_neg (by omega)] at hp
            cases l with
            | nil => simp at hp; exact one _ hp.1.symm rfl
            | cons q l =>
              rw [List.cons_append] at hp
              injection hp with e1 e2
              have := ih (step_inv h ‹_› g1 (n := min k b.length) (by omega) hk) l p r e2
              rw [← e1, taken_cons, ← List.append_assoc]
              exact this
      · simp at hp
  exact key (after_inv h)

/-- The stream is taken for closed only after an error, and for full only when it took nothing. -/
theorem C127_stops {whole acc : Bytes} {s : SendData} (h : After whole acc s) (rs : List Reply) :
    ((send s rs).1 = .closed → .err ∈ rs) ∧ ((send s rs).1 = .more → .room 0 ∈ rs) :=
  (send_inv (after_inv h)).2.2.2.2

/-- The length is that of the whole data, at any time. -/
theorem C127_len {whole acc : Bytes} {s : SendData} (h : After whole acc s) : len s = whole.length := (after_inv h).total

/-! ### Examples -/

example : send (ofBytes [1, 2, 3]) [.room 2, .room 0] =
    (.more, { data := [1, 2, 3], offset := 2, remaining := 1, total := 3 }, [([1, 2, 3], [1, 2]), ([3], [])]) := by decide +kernel

/-- A second call finishes. -/
example : (send (send (ofBytes [1, 2, 3]) [.room 2, .room 0]).2.1 [.room 9]).1 = .done := by decide +kernel

example : After [1, 2, 3] [1, 2] (send (ofBytes [1, 2, 3]) [.room 2, .room 0]).2.1 := by
  have h : [] ++ taken (send (ofBytes [1, 2, 3]) [.room 2, .room 0]).2.2 = [1, 2] := by decide +kernel
  rw [← h]
  exact After.call [.room 2, .room 0] .bytes

/-- More zeros than the buffer has: the second piece starts over. -/
example : ((send (zeroes 32770) [.room 40000, .room 40000]).2.2.map fun p => p.2.length) = [32768, 2] := by decide +kernel

/-- No data is done at once. -/
example : (send (ofBytes []) []).1 = .done := by decide +kernel

end Neqo.SendData
