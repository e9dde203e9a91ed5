import Verif.RecvStream.RxInv

/-! `discard_after` and `buffered` preserve / follow from the buffer invariant. -/
namespace Neqo.Recv
open Neqo.Codec (Bytes)

/-- The received bytes below `n`. -/
def Rcv.upTo (R : Rcv) (n : Nat) : Rcv := fun i b => R i b ∧ i < n

theorem discardAfter_retired (s : Rx) (n : Nat) : (s.discardAfter n).retired = s.retired := by
  unfold Rx.discardAfter; simp only; split <;> rfl

theorem discardAfter_inv {R : Rcv} {s : Rx} (h : Inv R s) {n : Nat} (hn : s.retired < n) :
    Inv (R.upTo n) (s.discardAfter n) := by
  have hm := h.sorted.split_below n
  have hpast : ∀ i, i < s.retired → ∃ b, R.upTo n i b := fun i hi => by
    obtain ⟨b, hb⟩ := h.past i hi
    exact ⟨b, hb, by omega⟩
  have hcov : ∀ i, s.retired ≤ i → ((∃ b, R.upTo n i b) ↔ Cov (s.ranges.below n) i ∧ i < n) := by
    intro i hi
    constructor
    · rintro ⟨b, hb, hlt⟩
      refine ⟨?_, hlt⟩
      have := (h.cover i hi).mp ⟨b, hb⟩
      rw [hm, cov_append] at this
      rcases this with h1 | ⟨e, he, h1, _⟩
      · exact h1
      · have := (SMap.mem_atOrAfter.mp he).2; omega
    · rintro ⟨h1, hlt⟩
      have : Cov s.ranges i := by rw [hm, cov_append]; exact .inl h1
      obtain ⟨b, hb⟩ := (h.cover i hi).mpr this
      exact ⟨b, hb, hlt⟩
  unfold Rx.discardAfter
  simp only
  cases hl : (s.ranges.below n).getLast? with
  | none =>
    have hnil : s.ranges.below n = [] := List.getLast?_eq_none_iff.mp hl
    simp only [hnil]
    refine ⟨List.Pairwise.nil, by simp, by simp, ?_, hpast, by simp, .inl ⟨rfl, rfl⟩⟩
    intro i hi
    rw [hcov i hi, hnil]
    simp
  | some e =>
    obtain ⟨start, data⟩ := e
    have hsplit := getLast?_split hl
    have hmem : (start, data) ∈ s.ranges.below n := by rw [hsplit]; simp
    have hmem' := SMap.mem_below.mp hmem
    have hlive := h.live _ hmem'.1
    have hst : start < n := hmem'.2
    have hdpos : 0 < data.length := List.length_pos_iff.mpr hlive.1
    simp only [rend] at hlive
    generalize hA : (s.ranges.below n).dropLast = A at *
    have hdis : Disj (A ++ [(start, data)]) := by
      have := h.disj
      rw [hm, hsplit, disj_append] at this
      exact this.1
    rw [disj_append] at hdis
    have hAm : ∀ e ∈ A, e ∈ s.ranges := fun e he => by
      have : e ∈ s.ranges.below n := by rw [hsplit]; simp [he]
      exact (SMap.mem_below.mp this).1
    have hlen : (data.take (n - start)).length = min (n - start) data.length := List.length_take
    refine ⟨?_, ?_, ?_, ?_, hpast, ?_, ?_⟩
    · simp only
      rw [disj_append]
      refine ⟨hdis.1, List.pairwise_singleton _ _, ?_⟩
      intro x hx y hy
      simp at hy; subst hy
      exact hdis.2.2 x hx (start, data) (by simp)
    · intro e he
      simp only [List.mem_append, List.mem_singleton] at he
      rcases he with he | rfl
      · intro i b hb
        refine ⟨h.data e (hAm e he) i b hb, ?_⟩
        have h1 := hdis.2.2 e he (start, data) (by simp)
        have h2 := (List.getElem?_eq_some_iff.mp hb).1
        simp only [rend] at h1; omega
      · intro i b hb
        have h2 := (List.getElem?_eq_some_iff.mp hb).1
        refine ⟨?_, by simp only [hlen] at h2 ⊢; omega⟩
        exact ((h.data _ hmem'.1).take (n - start)) i b hb
    · intro e he
      simp only [List.mem_append, List.mem_singleton] at he
      rcases he with he | rfl
      · exact h.live e (hAm e he)
      · refine ⟨?_, ?_⟩
        · intro h0
          have := congrArg List.length h0
          simp only [hlen, List.length_nil] at this; omega
        · simp only [rend, hlen]; omega
    · intro i hi
      simp only at hi ⊢
      rw [hcov i hi, hsplit, cov_append, cov_append, cov_cons, cov_cons]
      simp only [rend, hlen]
      constructor
      · rintro ⟨h1 | h1 | h1, h2⟩
        · exact .inl h1
        · exact .inr (.inl ⟨h1.1, by omega⟩)
        · exact absurd h1 (by simp)
      · rintro (h1 | h1 | h1)
        · refine ⟨.inl h1, ?_⟩
          obtain ⟨e, he, h3, h4⟩ := h1
          have := hdis.2.2 e he (start, data) (by simp)
          simp only at this; omega
        · exact ⟨.inr (.inl ⟨h1.1, by omega⟩), by omega⟩
        · exact absurd h1 (by simp)
    · intro e he
      simp only [List.mem_append, List.mem_singleton] at he ⊢
      rcases he with he | rfl
      · have := hdis.2.2 e he (start, data) (by simp)
        simp only at this; omega
      · simp only [rend]; omega
    · right
      exact ⟨(start, data.take (n - start)), by simp, rfl⟩

end Neqo.Recv
