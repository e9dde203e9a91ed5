import Verif.SendStream.TrackerUnmark

/-!
# C15, C16: the sent-byte tracker is a map from bytes to marks

`Tracker.run` applies any sequence of operations to a new tracker; nothing is assumed about the
ranges (they may overlap, repeat, be empty or come in any order).
-/
namespace Neqo.Send

/-- No operation sequence makes the tracker panic. -/
theorem C15_no_panic (ops : List TOp) : ∃ t, Tracker.run {} ops = .ok t :=
  let ⟨t, h, _⟩ := run_ok (ops := ops) tok_new
  ⟨t, h⟩

theorem run_inv {ops : List TOp} {t : Tracker} (h : Tracker.run {} ops = .ok t) : TOk t := by
  obtain ⟨t', h1, h2⟩ := run_ok (ops := ops) tok_new
  rw [h] at h1
  cases h1
  exact h2

theorem mark_new (i : Nat) : Tracker.mark {} i = .unsent := rfl

theorem mark_of_iff {t t' : Tracker} (h : TOk t) (h' : TOk t') {i : Nat}
    (ha : AckedAt t' i ↔ AckedAt t i) (hs : SentAt t' i ↔ SentAt t i) : t'.mark i = t.mark i := by
  rw [← mark_acked h, ← mark_acked h'] at ha
  rw [← mark_sent h, ← mark_sent h'] at hs
  cases h1 : t.mark i <;> cases h2 : t'.mark i <;> rw [h1, h2] at ha hs <;> first | rfl | (simp at ha; done) | (simp at hs; done)

/-- Acknowledging a range marks exactly that range acknowledged and changes nothing else. -/
theorem C15_ack_exact {ops : List TOp} {t : Tracker} (h : Tracker.run {} ops = .ok t) (off len : Nat) (i : Nat) :
    (t.markAcked off len).mark i = ackSpec t.mark off len i := by
  have ht := run_inv h
  obtain ⟨h1, _, h2, h3⟩ := markAcked_ok ht off len
  unfold ackSpec
  split
  · rename_i hr
    exact (mark_acked h1 i).mpr ((h2 i).mpr (.inr hr))
  · rename_i hr
    refine mark_of_iff ht h1 ?_ ?_
    · rw [h2]; exact ⟨fun h => h.resolve_right hr, .inl⟩
    · rw [h3]; exact ⟨fun h => h.1, fun h => ⟨h, hr⟩⟩

/-- Sending a range marks exactly its bytes that are not acknowledged, and cannot fail. -/
theorem C15_sent_exact {ops : List TOp} {t : Tracker} (h : Tracker.run {} ops = .ok t) (off len : Nat) :
    ∃ t', t.markSent off len = .ok t' ∧ ∀ i, t'.mark i = sentSpec t.mark off len i := by
  have ht := run_inv h
  obtain ⟨t', he, h1, _, h2, h3⟩ := markSent_ok ht off len
  refine ⟨t', he, fun i => ?_⟩
  unfold sentSpec
  split
  · rename_i hr
    refine (mark_sent h1 i).mpr ((h3 i).mpr (.inr ⟨hr.1, hr.2.1, ?_⟩))
    rw [← mark_acked ht]; exact hr.2.2
  · rename_i hr
    refine mark_of_iff ht h1 (h2 i) ?_
    rw [h3]
    refine ⟨fun h => h.resolve_right ?_, .inl⟩
    rintro ⟨hx, hx', hy⟩
    rw [← mark_acked ht] at hy
    exact hr ⟨hx, hx', hy⟩

theorem step_acked_stays {t t' : Tracker} (ht : TOk t) {op : TOp} (he : t.step op = .ok t') {i : Nat}
    (ha : AckedAt t i) : AckedAt t' i := by
  cases op with
  | acked o l =>
    cases he
    exact ((markAcked_ok ht o l).2.2.1 i).mpr (.inl ha)
  | sent o l =>
    obtain ⟨t2, h1, _, _, h2, _⟩ := markSent_ok ht o l
    simp only [Tracker.step] at he
    rw [h1] at he; cases he
    exact (h2 i).mpr ha
  | lost o l =>
    obtain ⟨t2, h1, _, _, h2, _⟩ := unmark_ok ht o l
    simp only [Tracker.step] at he
    rw [h1] at he; cases he
    exact (h2 i).mpr ha
  | lostAll =>
    obtain ⟨t2, h1, _, _, h2, _⟩ := unmarkSent_ok ht
    simp only [Tracker.step] at he
    rw [h1] at he; cases he
    exact (h2 i).mpr ha
  | query =>
    cases he
    unfold Tracker.firstUnmarked
    split <;> exact ha

/-- An acknowledged byte stays acknowledged whatever happens later. -/
theorem C15_acked_forever {ops more : List TOp} {t t' : Tracker} (h : Tracker.run {} ops = .ok t)
    (h' : t.run more = .ok t') {i : Nat} (ha : t.mark i = .acked) : t'.mark i = .acked := by
  have ht := run_inv h
  rw [mark_acked ht] at ha
  clear h
  induction more generalizing t with
  | nil => cases h'; exact (mark_acked ht i).mpr ha
  | cons op more ih =>
    obtain ⟨t1, h1, h2⟩ := step_ok ht op
    simp only [Tracker.run, h1] at h'
    exact ih h' (step_acked_stays ht h1 ha) h2

/-- A byte is acknowledged exactly when some acknowledged range so far contained it. -/
theorem C15_acked_iff_acknowledged {ops : List TOp} {t : Tracker} (h : Tracker.run {} ops = .ok t) (i : Nat) :
    t.mark i = .acked ↔ ∃ o l, TOp.acked o l ∈ ops ∧ o ≤ i ∧ i < o + l := by
  have main : ∀ {ops : List TOp} {t0 t : Tracker}, TOk t0 → t0.run ops = .ok t →
      (AckedAt t i ↔ AckedAt t0 i ∨ ∃ o l, TOp.acked o l ∈ ops ∧ o ≤ i ∧ i < o + l) := by
    intro ops
    induction ops with
    | nil =>
      intro t0 t _ he
      cases he
      simp
    | cons op ops ih =>
      intro t0 t h0 he
      obtain ⟨t1, h1, h2⟩ := step_ok h0 op
      simp only [Tracker.run, h1] at he
      rw [ih h2 he]
      have hstep : AckedAt t1 i ↔ AckedAt t0 i ∨ ∃ o l, TOp.acked o l = op ∧ o ≤ i ∧ i < o + l := by
        cases op with
        | acked o l =>
          cases h1
          rw [(markAcked_ok h0 o l).2.2.1 i]
          constructor
          · rintro (h | h)
            · exact .inl h
            · exact .inr ⟨o, l, rfl, h⟩
          · rintro (h | ⟨o', l', h, h'⟩)
            · exact .inl h
            · cases h; exact .inr h'
        | sent o l =>
          obtain ⟨t2, g1, _, _, g2, _⟩ := markSent_ok h0 o l
          simp only [Tracker.step] at h1
          rw [g1] at h1; cases h1
          rw [g2]; simp
        | lost o l =>
          obtain ⟨t2, g1, _, _, g2, _⟩ := unmark_ok h0 o l
          simp only [Tracker.step] at h1
          rw [g1] at h1; cases h1
          rw [g2]; simp
        | lostAll =>
          obtain ⟨t2, g1, _, _, g2, _⟩ := unmarkSent_ok h0
          simp only [Tracker.step] at h1
          rw [g1] at h1; cases h1
          rw [g2]; simp
        | query =>
          cases h1
          have : AckedAt t0.firstUnmarked.1 i ↔ AckedAt t0 i := by
            unfold Tracker.firstUnmarked
            split <;> exact Iff.rfl
          rw [this]; simp
      rw [hstep]
      constructor
      · rintro ((h | ⟨o, l, h, h'⟩) | ⟨o, l, h, h'⟩)
        · exact .inl h
        · exact .inr ⟨o, l, by simp [h], h'⟩
        · exact .inr ⟨o, l, by simp [h], h'⟩
      · rintro (h | ⟨o, l, h, h'⟩)
        · exact .inl (.inl h)
        · rcases List.mem_cons.mp h with h | h
          · exact .inl (.inr ⟨o, l, h, h'⟩)
          · exact .inr ⟨o, l, h, h'⟩
  rw [mark_acked (run_inv h), main tok_new h]
  constructor
  · rintro (h | h)
    · rcases h with h | ⟨e, he, _⟩
      · exact absurd h (Nat.not_lt_zero _)
      · cases he
    · exact h
  · exact .inr

/-- The contiguous acknowledged prefix the tracker reports is exact: everything before it is
acknowledged and the byte at it is not. -/
theorem C15_acked_prefix_exact {ops : List TOp} {t : Tracker} (h : Tracker.run {} ops = .ok t) :
    (∀ i, i < t.acked → t.mark i = .acked) ∧ t.mark t.acked ≠ .acked := by
  have ht := run_inv h
  refine ⟨fun i hi => (mark_acked ht i).mpr (.inl hi), fun hc => ?_⟩
  rcases (mark_acked ht _).mp hc with h1 | ⟨e, he, hs, h1, _⟩
  · omega
  · have := ht.lowA e he hs; omega

/-- The first unsent range the tracker reports is exact: every byte before it is sent or
acknowledged, every byte in it is unsent, and it ends only where a byte is sent or acknowledged
(no length means: everything from there on is unsent). -/
theorem C15_first_unsent_exact {ops : List TOp} {t : Tracker} (h : Tracker.run {} ops = .ok t)
    {start : Nat} {length : Option Nat} (hr : t.firstUnmarked.2 = (start, length)) :
    (∀ i, i < start → t.mark i ≠ .unsent) ∧
    (∀ i, start ≤ i → (∀ l, length = some l → i < start + l) → t.mark i = .unsent) ∧
    (∀ l, length = some l → 0 < l ∧ t.mark (start + l) ≠ .unsent) := by
  have ht := run_inv h
  rw [(firstUnmarked_eq ht).1] at hr
  obtain ⟨h1, h2, h3, h4⟩ := firstGo_spec ht.u ht.low
  rw [hr] at h1 h2 h3 h4
  simp only at h1 h2 h3 h4
  refine ⟨fun i hi hc => ?_, fun i hi hl => ?_, fun l hl => ⟨(h4 l hl).1, fun hc => ?_⟩⟩
  · obtain ⟨ha, hs⟩ := (mark_unsent ht i).mp hc
    by_cases hlow : i < t.acked
    · exact ha (.inl hlow)
    · rcases h2 i (by omega) hi with h5 | h5
      · exact hs h5
      · exact ha (.inr h5)
  · have h5 := h3 i hi hl
    refine (mark_unsent ht i).mpr ⟨?_, h5 .sent⟩
    rintro (h6 | h6)
    · omega
    · exact h5 .acked h6
  · obtain ⟨ha, hs⟩ := (mark_unsent ht _).mp hc
    obtain ⟨s, h5⟩ := (h4 l hl).2
    cases s with
    | sent => exact hs h5
    | acked => exact ha (.inr h5)

/-! ## C16 -/

/-- Losing a range can only turn sent bytes unsent; bytes before the range keep their mark; inside
it exactly the bytes that are not acknowledged become unsent; after it a byte changes only if the
whole stretch from the byte before the range up to it was sent.  The last part falls short of the
property, which asks that bytes after the range never change. -/
theorem C16_lost_exact_partial {ops : List TOp} {t : Tracker} (h : Tracker.run {} ops = .ok t) (off len : Nat) :
    ∃ t', t.unmark off len = .ok t' ∧
      (∀ i, t'.mark i = t.mark i ∨ (t.mark i = .sent ∧ t'.mark i = .unsent)) ∧
      (∀ i, i < off + len → t'.mark i = lostSpec t.mark off len i) ∧
      (∀ i, off + len ≤ i → t'.mark i = lostSpec t.mark off len i ∨
        (0 < off ∧ 0 < len ∧ ∀ j, off - 1 ≤ j → j ≤ i → t.mark j = .sent)) := by
  have ht := run_inv h
  obtain ⟨t', he, h1, _, h2, h3⟩ := unmark_ok ht off len
  refine ⟨t', he, fun i => ?_, fun i hi => ?_, fun i hi => ?_⟩
  · by_cases hs : SentAt t' i ↔ SentAt t i
    · exact .inl (mark_of_iff ht h1 (h2 i) hs)
    · right
      have h4 : SentAt t i := by
        by_contra hc
        exact hs ⟨fun h => ((h3 i).mp h).1, fun h => absurd h hc⟩
      have h5 : ¬ SentAt t' i := fun hc => hs ⟨fun _ => h4, fun _ => hc⟩
      refine ⟨(mark_sent ht i).mpr h4, (mark_unsent h1 i).mpr ⟨fun hc => ?_, h5⟩⟩
      have := (mark_acked ht i).mpr ((h2 i).mp hc)
      rw [(mark_sent ht i).mpr h4] at this
      cases this
  · unfold lostSpec
    split
    · rename_i hr
      refine (mark_unsent h1 i).mpr ⟨?_, ?_⟩
      · rw [h2, ← mark_acked ht]; exact hr.2.2
      · rw [h3]
        exact fun hc => hc.2.1 ⟨hr.1, hr.2.1⟩
    · rename_i hr
      refine mark_of_iff ht h1 (h2 i) ?_
      rw [h3]
      refine ⟨fun h => h.1, fun hs => ?_⟩
      have hna : t.mark i ≠ .acked := by rw [(mark_sent ht i).mpr hs]; simp
      have hlt : i < off := by
        by_contra hc
        exact hr ⟨by omega, hi, hna⟩
      exact ⟨hs, by omega, by omega⟩
  · by_cases hstr : 0 < len ∧ off ≤ i ∧ Straddles t.used off i
    · right
      obtain ⟨h4, _, e, h5, h6, h7, h8, h9⟩ := hstr
      refine ⟨by omega, h4, fun j hj hj' => (mark_sent ht j).mpr ⟨e, h5, h6, by omega, by omega⟩⟩
    · left
      have : t'.mark i = t.mark i := by
        refine mark_of_iff ht h1 (h2 i) ?_
        rw [h3]
        exact ⟨fun h => h.1, fun h => ⟨h, by omega, hstr⟩⟩
      rw [this]
      unfold lostSpec
      rw [if_neg (by omega)]

/-- The full statement is exact when the range starts at or after everything that was sent in the
same run: at the first byte, after an unsent byte or after an acknowledged one. -/
theorem C16_lost_exact_at_run_start {ops : List TOp} {t : Tracker} (h : Tracker.run {} ops = .ok t) (off len : Nat)
    (hstart : off = 0 ∨ t.mark (off - 1) ≠ .sent ∨ t.mark (off + len - 1) ≠ .sent ∨ t.mark (off + len) ≠ .sent) :
    ∃ t', t.unmark off len = .ok t' ∧ ∀ i, t'.mark i = lostSpec t.mark off len i := by
  obtain ⟨t', he, h1, h2, h3⟩ := C16_lost_exact_partial h off len
  refine ⟨t', he, fun i => ?_⟩
  by_cases hi : i < off + len
  · exact h2 i hi
  · rcases h3 i (by omega) with h4 | ⟨h4, h5, h6⟩
    · exact h4
    · rcases hstart with h7 | h7 | h7 | h7
      · omega
      · exact absurd (h6 (off - 1) (Nat.le_refl _) (by omega)) h7
      · exact absurd (h6 (off + len - 1) (by omega) (by omega)) h7
      · exact absurd (h6 (off + len) (by omega) (by omega)) h7

/-- Declaring everything lost leaves no byte in flight and no acknowledged byte changed. -/
theorem C16_lost_all {ops : List TOp} {t : Tracker} (h : Tracker.run {} ops = .ok t) :
    ∃ t', t.unmarkSent = .ok t' ∧ ∀ i, t'.mark i = if t.mark i = .acked then .acked else .unsent := by
  have ht := run_inv h
  obtain ⟨t', he, h1, _, h2, h3⟩ := unmarkSent_ok ht
  refine ⟨t', he, fun i => ?_⟩
  split
  · rename_i ha
    rw [mark_acked ht] at ha
    exact (mark_acked h1 i).mpr ((h2 i).mpr ha)
  · rename_i ha
    rw [mark_acked ht] at ha
    exact (mark_unsent h1 i).mpr ⟨fun hc => ha ((h2 i).mp hc), h3 i⟩

/-- The property fails as stated: after sending bytes 0–299, losing 100–199 also marks 250 (and
everything from 200 to 299) unsent, so they are sent again although nothing says they were lost. -/
theorem C16_lost_too_much : ∃ (ops : List TOp) (t t' : Tracker) (off len i : Nat),
    Tracker.run {} ops = .ok t ∧ t.unmark off len = .ok t' ∧ ¬ (off ≤ i ∧ i < off + len) ∧
    t.mark i = .sent ∧ t'.mark i = .unsent :=
  ⟨[.sent 0 300], ⟨0, [(0, (300, .sent))], none⟩, ⟨0, [(0, (100, .sent))], none⟩, 100, 100, 250,
    by decide +kernel, by decide +kernel, by decide, by decide +kernel, by decide +kernel⟩

/-! ## Examples -/

/-- A history with overlaps, gaps, an out-of-order acknowledgement and a loss. -/
def demoOps : List TOp :=
  [.sent 0 100, .sent 150 50, .acked 20 30, .acked 160 100, .query, .lost 60 30, .acked 0 10]

def demoTracker : Tracker :=
  ⟨10, [(10, (10, .sent)), (20, (30, .acked)), (50, (10, .sent)), (150, (10, .sent)), (160, (100, .acked))], none⟩

example : Tracker.run {} demoOps = .ok demoTracker := by decide +kernel
example : demoTracker.firstUnmarked.2 = (60, some 90) := by decide +kernel
example : demoTracker.mark 5 = .acked ∧ demoTracker.mark 15 = .sent ∧ demoTracker.mark 25 = .acked ∧
    demoTracker.mark 70 = .unsent ∧ demoTracker.mark 240 = .acked ∧ demoTracker.mark 300 = .unsent := by decide +kernel
example : (demoTracker.markAcked 5 20).acked = 50 := by decide +kernel
example : (demoTracker.markSent 55 100).map (·.firstUnmarked.2) = .ok (260, none) := by decide +kernel
example : demoTracker.mark (50 - 1) ≠ .sent := by decide +kernel
example : (demoTracker.unmark 50 120).map (·.mark 155) = .ok .unsent := by decide +kernel
example : TOp.acked 160 100 ∈ demoOps ∧ 160 ≤ 240 ∧ 240 < 160 + 100 := by decide

end Neqo.Send
