import Verif.SendStream.TxModel
import Verif.SendStream.TrackerUnmark

/-! # `TxBuffer`: lemmas -/
namespace Neqo.Send
open Neqo.Codec (Bytes)

/-- The buffer holds what was written (`w`) minus the acknowledged prefix, and only written bytes
are marked. -/
structure TxOk (t : Tx) (w : Bytes) : Prop where
  ranges : TOk t.ranges
  buf : t.buf = w.drop t.ranges.acked
  acked : ∀ i, AckedAt t.ranges i → i < w.length
  sent : ∀ i, SentAt t.ranges i → i < w.length
  size : t.buf.length ≤ txMax

theorem txok_new : TxOk {} [] :=
  ⟨tok_new, rfl, by rintro i (h | ⟨e, he, _⟩); exacts [absurd h (Nat.not_lt_zero _), nomatch he],
    (by rintro i ⟨e, he, _⟩; cases he), Nat.zero_le _⟩

theorem TxOk.retired_le {t : Tx} {w : Bytes} (h : TxOk t w) : t.ranges.acked ≤ w.length := by
  rcases Nat.eq_zero_or_pos t.ranges.acked with h0 | h0
  · omega
  · have := h.acked (t.ranges.acked - 1) (.inl (by omega)); omega

theorem TxOk.used {t : Tx} {w : Bytes} (h : TxOk t w) : t.used = w.length := by
  have := h.retired_le
  unfold Tx.used Tx.retired
  rw [h.buf, List.length_drop]; omega

theorem TxOk.avail {t : Tx} {w : Bytes} (h : TxOk t w) : t.avail = .ok (txMax - t.buf.length) := by
  unfold Tx.avail
  rw [if_pos h.size]

theorem TxOk.send {t : Tx} {w : Bytes} (h : TxOk t w) (data : Bytes) :
    ∃ t', t.send data = .ok (t', min (txMax - t.buf.length) data.length) ∧
      t'.ranges = t.ranges ∧ TxOk t' (w ++ data.take (min (txMax - t.buf.length) data.length)) := by
  unfold Tx.send
  rw [h.avail]
  simp only
  refine ⟨_, rfl, rfl, h.ranges, ?_, fun i hi => ?_, fun i hi => ?_, ?_⟩
  · simp only
    rw [List.drop_append_of_le_length h.retired_le, h.buf]
  · rw [List.length_append]
    have := h.acked i hi; omega
  · rw [List.length_append]
    have := h.sent i hi; omega
  · simp only [List.length_append, List.length_take]
    have := h.size; omega

theorem TxOk.first {t : Tx} {w : Bytes} (h : TxOk t w) :
    TxOk t.first.1 w ∧ t.first.1.ranges.acked = t.ranges.acked ∧ t.first.1.buf = t.buf ∧
    (∀ i, AckedAt t.first.1.ranges i ↔ AckedAt t.ranges i) ∧
    (∀ i, SentAt t.first.1.ranges i ↔ SentAt t.ranges i) := by
  obtain ⟨_, h1, h2, h3⟩ := firstUnmarked_eq h.ranges
  have ha : ∀ i, AckedAt t.ranges.firstUnmarked.1 i ↔ AckedAt t.ranges i := by
    intro i; unfold AckedAt; rw [h2, h3]
  have hs : ∀ i, SentAt t.ranges.firstUnmarked.1 i ↔ SentAt t.ranges i := by
    intro i; unfold SentAt; rw [h3]
  refine ⟨⟨h1, ?_, ?_, ?_, h.size⟩, h2, rfl, ha, hs⟩
  · show t.buf = w.drop t.ranges.firstUnmarked.1.acked
    rw [h2, h.buf]
  · intro i hi; exact h.acked i ((ha i).mp hi)
  · intro i hi; exact h.sent i ((hs i).mp hi)

/-- `first_unmarked_range`: none means everything written is marked; otherwise the first unmarked
byte and how far the gap goes. -/
theorem TxOk.first_spec {t : Tx} {w : Bytes} (h : TxOk t w) :
    (t.first.2 = none → ∀ i, i < w.length → AckedAt t.ranges i ∨ SentAt t.ranges i) ∧
    (∀ start ml, t.first.2 = some (start, ml) → t.ranges.acked ≤ start ∧ start < w.length ∧
      (∀ i, i < start → AckedAt t.ranges i ∨ SentAt t.ranges i) ∧
      (∀ i, start ≤ i → (∀ l, ml = some l → i < start + l) → ¬ AckedAt t.ranges i ∧ ¬ SentAt t.ranges i) ∧
      (∀ l, ml = some l → 0 < l ∧ start + l < w.length)) := by
  obtain ⟨h0, _⟩ := firstUnmarked_eq h.ranges
  obtain ⟨h1, h2, h3, h4⟩ := firstGo_spec h.ranges.u h.ranges.low
  rw [← h0] at h1 h2 h3 h4
  have hu := h.used
  unfold Tx.used at hu
  have hcov : ∀ i, i < t.ranges.firstUnmarked.2.1 → AckedAt t.ranges i ∨ SentAt t.ranges i := by
    intro i hi
    by_cases hlow : i < t.ranges.acked
    · exact .inl (.inl hlow)
    · rcases h2 i (by omega) hi with h5 | h5
      · exact .inr h5
      · exact .inl (.inr h5)
  have hle : t.ranges.firstUnmarked.2.1 ≤ w.length := by
    rcases Nat.eq_zero_or_pos t.ranges.firstUnmarked.2.1 with h5 | h5
    · omega
    · rcases hcov (t.ranges.firstUnmarked.2.1 - 1) (by omega) with h6 | h6
      · have := h.acked _ h6; omega
      · have := h.sent _ h6; omega
  unfold Tx.first
  simp only
  rw [hu]
  by_cases hc : t.ranges.firstUnmarked.2.1 ≠ w.length
  · rw [if_pos hc]
    refine ⟨fun h => (by cases h), fun start ml he => ?_⟩
    rw [Option.some.injEq] at he
    have e1 : t.ranges.firstUnmarked.2.1 = start := congrArg (·.1) he
    have e2 : t.ranges.firstUnmarked.2.2 = ml := congrArg (·.2) he
    rw [e1] at h1 h3 h4 hcov hle hc
    rw [e2] at h3 h4
    refine ⟨h1, by omega, hcov, fun i hi hl => ?_, fun l hl => ?_⟩
    · have h5 := h3 i hi hl
      refine ⟨?_, h5 .sent⟩
      rintro (h6 | h6)
      · omega
      · exact h5 .acked h6
    · obtain ⟨h5, s, h6⟩ := h4 l hl
      refine ⟨h5, ?_⟩
      cases s with
      | sent => exact h.sent _ h6
      | acked => exact h.acked _ (.inr h6)
  · rw [if_neg hc]
    have hc : t.ranges.firstUnmarked.2.1 = w.length := by omega
    rw [hc] at hcov
    exact ⟨fun _ => hcov, fun _ _ h => by cases h⟩

/-- `next_bytes` never panics; what it offers is what was written, starts at the first unmarked
byte, is not empty and does not reach into a marked byte. -/
theorem TxOk.next {t : Tx} {w : Bytes} (h : TxOk t w) (split : Nat) :
    ∃ r, t.next split = .ok (t.first.1, r) ∧
      (t.first.2 = none → r = none) ∧
      (∀ start ml, t.first.2 = some (start, ml) → ∃ data, r = some (start, data) ∧ 0 < data.length ∧
        start + data.length ≤ w.length ∧ data = (w.drop start).take data.length ∧
        (∀ l, ml = some l → data.length ≤ l)) := by
  have hspec := h.first_spec.2
  unfold Tx.next
  cases hf : t.first with
  | mk t' o =>
    rw [hf] at hspec
    simp only at hspec
    cases o with
    | none => exact ⟨none, rfl, fun _ => rfl, fun _ _ h => (by cases h)⟩
    | some p =>
      obtain ⟨start, ml⟩ := p
      obtain ⟨h1, h2, _, _, h5⟩ := hspec start ml rfl
      simp only
      change t.retired ≤ start at h1
      have hbuf : t.buf = w.drop t.retired := h.buf
      have hlen : t.buf.length = w.length - t.retired := by rw [hbuf, List.length_drop]
      rw [if_neg (show ¬ start < t.retired by omega),
        if_neg (show ¬ t.buf.length < start - t.retired by omega)]
      -- the slice is a non-empty prefix of what is left from `start`
      have hslc : ∃ n, 0 < n ∧ n ≤ w.length - start ∧
          (if start - t.retired < split then (t.buf.take split).drop (start - t.retired)
            else t.buf.drop (start - t.retired)) = (w.drop start).take n := by
        have hd : t.buf.drop (start - t.retired) = w.drop start := by
          rw [hbuf, List.drop_drop]
          congr 1; omega
        by_cases hs : start - t.retired < split
        · rw [if_pos hs]
          refine ⟨min (split - (start - t.retired)) (w.length - start), by omega, by omega, ?_⟩
          rw [List.drop_take, hd]
          rw [← List.length_drop, List.take_eq_take_min]
        · rw [if_neg hs, hd]
          refine ⟨w.length - start, by omega, by omega, ?_⟩
          rw [← List.length_drop, List.take_length]
      obtain ⟨n, hn1, hn2, hn3⟩ := hslc
      rw [hn3]
      refine ⟨_, rfl, fun h => (by cases h), fun start' ml' he => ?_⟩
      simp only [Option.some.injEq, Prod.mk.injEq] at he
      obtain ⟨rfl, rfl⟩ := he
      have hlenT : ((w.drop start).take n).length = n := by
        rw [List.length_take, List.length_drop]; omega
      refine ⟨_, rfl, ?_⟩
      rw [hlenT]
      cases ml with
      | none =>
        simp only
        rw [List.take_take, Nat.min_self, hlenT]
        exact ⟨hn1, by omega, rfl, by simp⟩
      | some l =>
        simp only
        have hl := (h5 l rfl).1
        rw [List.take_take]
        have e : min (min l n) n = min l n := by omega
        rw [e]
        have hlen2 : ((w.drop start).take (min l n)).length = min l n := by
          rw [List.length_take, List.length_drop]; omega
        rw [hlen2]
        refine ⟨by omega, by omega, rfl, ?_⟩
        intro l' he
        cases he; omega

theorem TxOk.markSent {t : Tx} {w : Bytes} (h : TxOk t w) {off len : Nat} (hle : len = 0 ∨ off + len ≤ w.length) :
    ∃ t', t.markSent off len = .ok t' ∧ TxOk t' w ∧ t'.ranges.acked = t.ranges.acked ∧ t'.buf = t.buf ∧
      (∀ i, AckedAt t'.ranges i ↔ AckedAt t.ranges i) ∧
      (∀ i, SentAt t'.ranges i ↔ SentAt t.ranges i ∨ (off ≤ i ∧ i < off + len ∧ ¬ AckedAt t.ranges i)) := by
  obtain ⟨r, h1, h2, h3, h4, h5⟩ := markSent_ok h.ranges off len
  unfold Tx.markSent
  rw [h1]
  refine ⟨_, rfl, ⟨h2, ?_, fun i hi => h.acked i ((h4 i).mp hi), fun i hi => ?_, h.size⟩, h3, rfl, h4, h5⟩
  · simp only [h3]; exact h.buf
  · rcases (h5 i).mp hi with h6 | ⟨h6, h7, _⟩
    · exact h.sent i h6
    · omega

theorem TxOk.markAcked {t : Tx} {w : Bytes} (h : TxOk t w) {off len : Nat} (hle : len = 0 ∨ off + len ≤ w.length) :
    ∃ t', t.markAcked off len = .ok t' ∧ TxOk t' w ∧ t.ranges.acked ≤ t'.ranges.acked ∧
      (∀ i, AckedAt t'.ranges i ↔ AckedAt t.ranges i ∨ (off ≤ i ∧ i < off + len)) ∧
      (∀ i, SentAt t'.ranges i ↔ SentAt t.ranges i ∧ ¬ (off ≤ i ∧ i < off + len)) := by
  obtain ⟨h1, h2, h3, h4⟩ := markAcked_ok h.ranges off len
  have hack : ∀ i, AckedAt (t.ranges.markAcked off len) i → i < w.length := by
    intro i hi
    rcases (h3 i).mp hi with h5 | h5
    · exact h.acked i h5
    · omega
  have hr : (t.ranges.markAcked off len).acked ≤ w.length := by
    rcases Nat.eq_zero_or_pos (t.ranges.markAcked off len).acked with h0 | h0
    · omega
    · have := hack ((t.ranges.markAcked off len).acked - 1) (.inl (by omega)); omega
  have hlen : t.buf.length = w.length - t.ranges.acked := by rw [h.buf, List.length_drop]
  unfold Tx.markAcked Tx.retired
  simp only
  rw [if_neg (by omega)]
  refine ⟨_, rfl, ⟨h1, ?_, hack, fun i hi => h.sent i ((h4 i).mp hi).1, ?_⟩, h2, h3, h4⟩
  · simp only
    rw [h.buf, List.drop_drop]
    congr 1; omega
  · simp only [List.length_drop]
    have := h.size; omega

theorem TxOk.markLost {t : Tx} {w : Bytes} (h : TxOk t w) (off len : Nat) :
    ∃ t', t.markLost off len = .ok t' ∧ TxOk t' w ∧ t'.ranges.acked = t.ranges.acked ∧ t'.buf = t.buf ∧
      (∀ i, AckedAt t'.ranges i ↔ AckedAt t.ranges i) ∧
      (∀ i, SentAt t'.ranges i → SentAt t.ranges i ∧ ¬ (off ≤ i ∧ i < off + len)) := by
  obtain ⟨r, h1, h2, h3, h4, h5⟩ := unmark_ok h.ranges off len
  unfold Tx.markLost
  rw [h1]
  refine ⟨_, rfl, ⟨h2, ?_, fun i hi => h.acked i ((h4 i).mp hi), fun i hi => h.sent i ((h5 i).mp hi).1, h.size⟩,
    h3, rfl, h4, fun i hi => ⟨((h5 i).mp hi).1, ((h5 i).mp hi).2.1⟩⟩
  simp only [h3]; exact h.buf

end Neqo.Send
