import Verif.SendStream.Keeps
import Verif.SendStream.Props

/-! # C18 (retransmission priority) and C48 (statistics) -/
namespace Neqo.Send
open Neqo.Codec (Bytes maxVarint)
open Neqo.Flow (SFc)

theorem reached_inv2 {h : Hist} (hr : Reached h) : HInv2 h := by
  obtain ⟨id, m, conn, ops, _, _, _, h4⟩ := hr
  exact hinv2_run (hinv2_new id m conn) h4

/-- Lost data is also offered at the stream's retransmission priority: a packet with room at that
priority carries a STREAM frame whenever some byte that was sent before and that the peer must get
is neither acknowledged nor in flight. -/
theorem C18_lost_offered {h h' : Hist} (hr : Reached h) {conn conn' : SFc} {rem split : Nat} {w : Wrote}
    (hs : h.step conn (.frames h.s.effPrio rem split) = .ok (h', conn', .wrote w)) (hroom : 82 ≤ rem) {i : Nat} {t : Tok}
    (ht : t ∈ h.r.toks) (h1 : t.off ≤ i) (h2 : i < t.off + t.len) (hg : i < h.r.goal) (ha : ¬ h.r.Acked i)
    (hfl : ¬ h.r.InFlight i) : ∃ off d fin fill, Frame.stream off d fin fill ∈ w.frames ∧ off ≤ i := by
  obtain ⟨w', e1, e2, _⟩ := step_frames hs
  cases e1
  have hi := reached_inv hr
  have sp := writeFrames_spec hi e2
  cases hw : w.frames.filterMap tokOf with
  | nil =>
    obtain ⟨k, hk⟩ := List.getElem?_of_mem ht
    have hnl : k ∉ h.r.live := fun hl => hfl ⟨k, hl, t, hk, h1, h2⟩
    have := (reached_inv2 hr).lost k t hk hnl
    have := sp.noneRetrans hw hroom rfl i hg (by omega)
    exact absurd this (by rintro (h | h); exacts [ha h, hfl h])
  | cons t ts =>
    have ht : t ∈ w.frames.filterMap tokOf := by rw [hw]; simp
    obtain ⟨f, hf, hft⟩ := List.mem_filterMap.mp ht
    cases f with
    | stream off d fin fill =>
      refine ⟨off, d, fin, fill, hf, ?_⟩
      rcases Nat.lt_or_ge i off with h1 | h1
      · rcases (sp.frame off d fin fill hf).1 i h1 with h | h
        · exact absurd h ha
        · exact absurd h hfl
      · exact h1
    | reset _ _ => cases hft
    | resetAt _ _ _ => cases hft
    | blocked _ => cases hft

/-! ## C48: statistics -/

/-- The number of bytes reported as written is the number accepted from the application, and the
number reported as sent is the highest offset a STREAM frame reached. -/
theorem C48_written_sent_exact {h : Hist} (hr : Reached h) :
    h.s.bytesWritten = h.r.written.length ∧ h.s.bytesSent = maxEnd h.r.toks := by
  have hi := reached_inv hr
  refine ⟨?_, (reached_inv2 hr).exact⟩
  have hst := hi.st
  unfold Stream.bytesWritten
  cases hs : h.s.state with
  | ready fc => rw [hs] at hst; rw [hst.1]; rfl
  | send fc tx c => exact (hst.marks (tx := tx) (by rw [hs]; rfl)).ok.used
  | dataSent tx a b c => exact (hst.marks (tx := tx) (by rw [hs]; rfl)).ok.used
  | resetReliable tx a b c d e => exact (hst.marks (tx := tx) (by rw [hs]; rfl)).ok.used
  | dataRecvd a b =>
    rw [hs] at hst
    obtain ⟨_, _, _, _, _, h6, h7, _⟩ := hst
    simp only; omega
  | resetSent _ _ _ _ a b =>
    rw [hs] at hst
    obtain ⟨_, _, _, h4, _⟩ := hst
    exact h4
  | resetRecvd a b =>
    rw [hs] at hst
    obtain ⟨_, _, h3, _⟩ := hst
    exact h3

theorem ready_unacked {r : Rec} (h : r.toks = []) (i : Nat) : ¬ r.Acked i := by
  rintro ⟨k, _, t, ht, _⟩
  rw [h] at ht
  simp at ht

/-- Everything below the number of bytes reported as acknowledged was acknowledged; as long as the
stream is not reset, that number is as large as it can be. -/
theorem C48_acked_exact {h : Hist} (hr : Reached h) :
    (∀ i, i < h.s.bytesAcked → h.r.Acked i) ∧
    (h.r.resetCalled = false → h.s.bytesAcked < h.r.written.length → ¬ h.r.Acked h.s.bytesAcked) := by
  have hi := reached_inv hr
  have hst := hi.st
  unfold Stream.bytesAcked
  have htx : ∀ tx, h.s.state.tx? = some tx → (∀ i, i < tx.retired → h.r.Acked i) ∧ ¬ h.r.Acked tx.retired :=
    fun tx ht => ⟨fun i hil => (hst.marks ht).prefix_acked hil, (hst.marks ht).retired_not_acked⟩
  cases hs : h.s.state with
  | ready fc =>
    rw [hs] at hst
    exact ⟨fun i hil => absurd hil (Nat.not_lt_zero _), fun _ _ => ready_unacked hst.2.1 _⟩
  | send fc tx c => have := htx tx (by rw [hs]; rfl); exact ⟨this.1, fun _ _ => this.2⟩
  | dataSent tx a b c => have := htx tx (by rw [hs]; rfl); exact ⟨this.1, fun _ _ => this.2⟩
  | resetReliable tx a b c d e => have := htx tx (by rw [hs]; rfl); exact ⟨this.1, fun _ _ => this.2⟩
  | dataRecvd a b =>
    rw [hs] at hst
    obtain ⟨_, _, _, _, _, h6, h7, h8, _⟩ := hst
    simp only
    exact ⟨fun i hil => h8 i (by omega), fun _ hlt => absurd hlt (by omega)⟩
  | resetSent _ _ _ _ a b =>
    rw [hs] at hst
    obtain ⟨h1, _, _, h4, _, _, _, h8, _⟩ := hst
    exact ⟨h8, fun h => by rw [h1] at h; cases h⟩
  | resetRecvd a b =>
    rw [hs] at hst
    obtain ⟨h1, _, _, _, h5, _⟩ := hst
    exact ⟨h5, fun h => by rw [h1] at h; cases h⟩

theorem C48_ordered {h : Hist} (hr : Reached h) :
    h.s.bytesAcked ≤ h.s.bytesSent ∧ h.s.bytesSent ≤ h.s.bytesWritten := by
  obtain ⟨e1, e2⟩ := C48_written_sent_exact hr
  have hi := reached_inv hr
  refine ⟨?_, by rw [e1]; exact hi.sentLe⟩
  rcases Nat.eq_zero_or_pos h.s.bytesAcked with h0 | h0
  · omega
  · obtain ⟨k, _, t, ht, h1, h2⟩ := (C48_acked_exact hr).1 (h.s.bytesAcked - 1) (by omega)
    have := hi.sentGe t (List.mem_of_getElem? ht)
    omega

/-! What one step does to the record. -/

/-- Acknowledgements are never forgotten, what was written stays written. -/
theorem rec_mono {h h' : Hist} (hr : HInv h) {conn conn' : SFc} {op : Op} {out : Out}
    (hs : h.step conn op = .ok (h', conn', out)) :
    (∃ x, h'.r.written = h.r.written ++ x) ∧ (∃ x, h'.r.toks = h.r.toks ++ x) ∧ (∀ i, h.r.Acked i → h'.r.Acked i) ∧
    (h'.r.resetCalled = false → h.r.resetCalled = false) ∧ (h'.r.closed = false → h.r.closed = false) := by
  have nil : ∀ {α : Type} (l : List α), ∃ x, l = l ++ x := fun l => ⟨[], (List.append_nil l).symm⟩
  cases op with
  | write data atomic =>
    simp only [Hist.step, Except.bind_eq_ok] at hs
    obtain ⟨⟨s', c', res⟩, e1, e2⟩ := hs
    cases res <;> cases e2
    · exact ⟨⟨_, rfl⟩, nil _, fun i h => h, id, id⟩
    · exact ⟨nil _, nil _, fun i h => h, id, id⟩
  | close => cases hs; exact ⟨nil _, nil _, fun i h => h, id, fun h => (Bool.or_eq_false_iff.mp h).1⟩
  | commit =>
    simp only [Hist.step] at hs
    split at hs <;> cases hs <;> exact ⟨nil _, nil _, fun i h => h, id, id⟩
  | reset err => cases hs; exact ⟨nil _, nil _, fun i h => h, fun h => (Bool.or_eq_false_iff.mp h).1, id⟩
  | stopSending err => cases hs; exact ⟨nil _, nil _, fun i h => h, fun h => (Bool.or_eq_false_iff.mp h).1, id⟩
  | setPriority p e => cases hs; exact ⟨nil _, nil _, fun i h => h, id, id⟩
  | setWatermark w => cases hs; exact ⟨nil _, nil _, fun i h => h, id, id⟩
  | maxStreamData l =>
    simp only [Hist.step, Except.bind_eq_ok] at hs
    obtain ⟨_, _, e⟩ := hs
    cases e; exact ⟨nil _, nil _, fun i h => h, id, id⟩
  | frames p rem split =>
    obtain ⟨w, _, _, e⟩ := step_frames hs
    rw [e]
    exact ⟨nil _, ⟨_, rfl⟩, fun i h => (acked_sent hr.rcd _ i).mpr h, id, id⟩
  | acked k =>
    simp only [Hist.step] at hs
    split at hs
    · cases hs; exact ⟨nil _, nil _, fun i h => h, id, id⟩
    · simp only [Except.bind_eq_ok] at hs
      obtain ⟨_, _, e⟩ := hs
      cases e
      refine ⟨nil _, nil _, fun i h => ?_, id, id⟩
      obtain ⟨k', hk', h⟩ := h
      exact ⟨k', List.mem_cons_of_mem _ hk', h⟩
  | lost k =>
    simp only [Hist.step] at hs
    split at hs
    · cases hs; exact ⟨nil _, nil _, fun i h => h, id, id⟩
    · simp only [Except.bind_eq_ok] at hs
      obtain ⟨_, _, e⟩ := hs
      cases e; exact ⟨nil _, nil _, fun i h => h, id, id⟩
  | resetAcked =>
    simp only [Hist.step] at hs
    split at hs <;> cases hs <;> exact ⟨nil _, nil _, fun i h => h, id, id⟩
  | resetLost =>
    simp only [Hist.step] at hs
    split at hs
    · simp only [Except.bind_eq_ok] at hs
      obtain ⟨_, _, e⟩ := hs
      cases e; exact ⟨nil _, nil _, fun i h => h, id, id⟩
    · cases hs; exact ⟨nil _, nil _, fun i h => h, id, id⟩
  | blockedLost l => cases hs; exact ⟨nil _, nil _, fun i h => h, id, id⟩
  | connRaised p c =>
    simp only [Hist.step, Except.bind_eq_ok] at hs
    obtain ⟨_, _, e⟩ := hs
    cases e; exact ⟨nil _, nil _, fun i h => h, id, id⟩

/-- The numbers written and sent never decrease, and the number acknowledged does not decrease
while the stream is not reset. -/
theorem C48_monotone {h h' : Hist} (hr : Reached h) {conn conn' : SFc} {op : Op} {out : Out} (hv : op.Valid)
    (hs : h.step conn op = .ok (h', conn', out)) :
    h.s.bytesWritten ≤ h'.s.bytesWritten ∧ h.s.bytesSent ≤ h'.s.bytesSent ∧
    (h'.r.resetCalled = false → h.s.bytesAcked ≤ h'.s.bytesAcked) := by
  have hr' := reached_step hr hv hs
  obtain ⟨⟨x, hx⟩, ⟨y, hy⟩, ha, hrc, hcl⟩ := rec_mono (reached_inv hr) hs
  obtain ⟨a1, a2⟩ := C48_written_sent_exact hr
  obtain ⟨b1, b2⟩ := C48_written_sent_exact hr'
  have hw : h.r.written.length ≤ h'.r.written.length := by rw [hx, List.length_append]; omega
  refine ⟨by rw [a1, b1]; exact hw, by rw [a2, b2, hy, maxEnd_append]; omega, fun hn => ?_⟩
  rcases Nat.lt_or_ge h'.s.bytesAcked h.s.bytesAcked with hlt | hge
  · exfalso
    obtain ⟨o1, o2⟩ := C48_ordered hr
    exact (C48_acked_exact hr').2 hn (by omega) (ha _ ((C48_acked_exact hr).1 _ hlt))
  · exact hge

end Neqo.Send
