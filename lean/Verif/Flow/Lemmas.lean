import Verif.Flow.Model

/-! Facts about `RFc` used by the stream models. -/
namespace Neqo.Flow

/-- `s'` is `s` with `dc` more consumed and `dr` more retired (a pending update may have been
flagged). -/
structure Adj (s s' : RFc) (dc dr : Nat) : Prop where
  con : s'.consumed = s.consumed + dc
  ret : s'.retired = s.retired + dr
  all : s'.maxAllowed = s.maxAllowed
  act : s'.maxActive = s.maxActive

theorem Adj.refl (s : RFc) : Adj s s 0 0 := ⟨rfl, rfl, rfl, rfl⟩

theorem Adj.trans {s s' s'' : RFc} {a b c d} (h : Adj s s' a b) (h' : Adj s' s'' c d) :
    Adj s s'' (a + c) (b + d) :=
  ⟨by rw [h'.con, h.con, Nat.add_assoc], by rw [h'.ret, h.ret, Nat.add_assoc],
   by rw [h'.all, h.all], by rw [h'.act, h.act]⟩

theorem addRetired_ok {s s' : RFc} {n : Nat} (h : s.addRetired n = .ok s') :
    Adj s s' 0 n ∧ s.retired + n ≤ s.consumed := by
  unfold RFc.addRetired at h
  split at h
  · rename_i hle
    simp only at h
    split at h
    · cases h
    · cases h
      split <;> exact ⟨⟨rfl, rfl, rfl, rfl⟩, hle⟩
  · cases h

theorem addRetired_succeeds {s : RFc} {n : Nat} (h1 : s.retired + n ≤ s.consumed)
    (h2 : s.retired + n ≤ s.maxAllowed) : ∃ s', s.addRetired n = .ok s' := by
  unfold RFc.addRetired RFc.shouldSendUpdate
  rw [if_pos h1]
  simp only
  rw [if_neg (by omega)]
  exact ⟨_, rfl⟩

theorem setConsumed_ok {s s' : RFc} {n k : Nat} (h : s.setConsumed n = .ok (s', k)) :
    Adj s s' k 0 ∧ s'.consumed = max s.consumed n ∧ (0 < k → n ≤ s.maxAllowed) := by
  unfold RFc.setConsumed at h
  split at h
  · cases h; exact ⟨Adj.refl s, by omega, by omega⟩
  · split at h
    · cases h
    · cases h
      exact ⟨⟨by simp only; omega, rfl, rfl, rfl⟩, by simp only; omega, by omega⟩

theorem consume_ok {s s' : RFc} {n : Nat} (h : s.consume n = .ok s') :
    Adj s s' n 0 ∧ s.consumed + n ≤ s.maxAllowed := by
  unfold RFc.consume at h
  split at h
  · cases h
  · cases h; exact ⟨⟨rfl, rfl, rfl, rfl⟩, by omega⟩

/-- The invariant of byte-counting receive flow control whose window is never shrunk. -/
structure FcOk (s : RFc) : Prop where
  ret : s.retired ≤ s.consumed
  con : s.consumed ≤ s.maxAllowed
  win : s.maxAllowed ≤ s.retired + s.maxActive
  cap : s.maxAllowed ≤ maxVarint

theorem fcOk_new {m : Nat} (h : m ≤ maxVarint) : FcOk (RFc.new m) :=
  ⟨by simp [RFc.new], by simp [RFc.new], by simp [RFc.new], h⟩

theorem FcOk.adj {s s' : RFc} {dc dr : Nat} (h : FcOk s) (ha : Adj s s' dc dr)
    (h1 : s.retired + dr ≤ s.consumed + dc) (h2 : s.consumed + dc ≤ s.maxAllowed) : FcOk s' := by
  obtain ⟨a, b, c, d⟩ := ha
  obtain ⟨e, f, g, i⟩ := h
  exact ⟨by omega, by omega, by omega, by omega⟩

theorem autoTune_ok {s s' : RFc} {now rtt mw : Nat} (h : s.autoTune now rtt mw = .ok s') :
    ∃ m, s' = { s with maxActive := m } ∧ s.maxActive ≤ m := by
  unfold RFc.autoTune at h
  split at h
  · cases h; exact ⟨_, rfl, Nat.le_refl _⟩
  · split at h
    · cases h; exact ⟨_, rfl, Nat.le_refl _⟩
    · simp only at h
      split at h
      · cases h
      · split at h
        · cases h; exact ⟨_, rfl, Nat.le_refl _⟩
        · split at h
          · cases h; exact ⟨_, rfl, Nat.le_refl _⟩
          · cases h; exact ⟨_, rfl, by omega⟩

theorem autoTune_succeeds {s : RFc} (h : FcOk s) (now rtt mw : Nat) :
    ∃ s', s.autoTune now rtt mw = .ok s' := by
  have h1 := h.ret; have h2 := h.con; have h3 := h.win
  unfold RFc.autoTune
  split
  · exact ⟨_, rfl⟩
  · split
    · exact ⟨_, rfl⟩
    · simp only
      rw [if_neg (by omega)]
      split
      · exact ⟨_, rfl⟩
      · split <;> exact ⟨_, rfl⟩

theorem write_ok {s s' : RFc} {fits : Bool} {now rtt mw : Nat} {o : Option Nat}
    (h : s.write fits now rtt mw = .ok (s', o)) :
    s'.consumed = s.consumed ∧ s'.retired = s.retired ∧ s.maxActive ≤ s'.maxActive ∧
    (match o with
      | none => s'.maxAllowed = s.maxAllowed
      | some l => s'.maxAllowed = l ∧ l = min (s'.retired + s'.maxActive) maxVarint) := by
  unfold RFc.write at h
  split at h
  · split at h
    · cases h
    · rename_i s1 hs1
      obtain ⟨m, rfl, hle⟩ := autoTune_ok hs1
      split at h
      · cases h
        exact ⟨rfl, rfl, hle, rfl, rfl⟩
      · cases h
        exact ⟨rfl, rfl, hle, rfl⟩
  · cases h
    exact ⟨rfl, rfl, Nat.le_refl _, rfl⟩

theorem write_succeeds {s : RFc} (h : FcOk s) (fits : Bool) (now rtt mw : Nat) :
    ∃ r, s.write fits now rtt mw = .ok r := by
  unfold RFc.write
  obtain ⟨s', hs'⟩ := autoTune_succeeds h now rtt mw
  split
  · simp only [hs']
    split <;> exact ⟨_, rfl⟩
  · exact ⟨_, rfl⟩

theorem FcOk.write {s s' : RFc} {fits : Bool} {now rtt mw : Nat} {o : Option Nat} (h : FcOk s)
    (hw : s.write fits now rtt mw = .ok (s', o)) :
    FcOk s' ∧ s.maxAllowed ≤ s'.maxAllowed := by
  obtain ⟨h1, h2, h3, h4⟩ := write_ok hw
  obtain ⟨a, b, c, d⟩ := h
  cases o with
  | none => simp only at h4; exact ⟨⟨by omega, by omega, by omega, by omega⟩, by omega⟩
  | some l =>
    obtain ⟨h4, h5⟩ := h4
    exact ⟨⟨by omega, by omega, by omega, by omega⟩, by omega⟩

theorem FcOk.frameLost {s : RFc} (h : FcOk s) (l : Nat) : FcOk (s.frameLost l) := by
  unfold RFc.frameLost
  split
  · exact ⟨h.ret, h.con, h.win, h.cap⟩
  · exact h

theorem FcOk.sendFlowcUpdate {s : RFc} (h : FcOk s) : FcOk s.sendFlowcUpdate := by
  unfold RFc.sendFlowcUpdate
  split
  · exact ⟨h.ret, h.con, h.win, h.cap⟩
  · exact h

theorem frameLost_adj (s : RFc) (l : Nat) : Adj s (s.frameLost l) 0 0 := by
  unfold RFc.frameLost; split <;> exact ⟨rfl, rfl, rfl, rfl⟩

theorem sendFlowcUpdate_adj (s : RFc) : Adj s s.sendFlowcUpdate 0 0 := by
  unfold RFc.sendFlowcUpdate; split <;> exact ⟨rfl, rfl, rfl, rfl⟩

end Neqo.Flow
