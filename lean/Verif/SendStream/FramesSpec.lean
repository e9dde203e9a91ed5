import Verif.SendStream.FrameLemmas

/-! # `write_frames` as a whole -/
namespace Neqo.Send
open Neqo.Codec (Bytes varintLen maxVarint)
open Neqo.Flow (SFc)

theorem sent_other {r : Rec} {fs : List Frame} (h : fs.filterMap tokOf = []) :
    (r.sent fs).toks = r.toks ∧ (r.sent fs).live = r.live := by
  simp [Rec.sent, h]

theorem covered_other {r : Rec} {fs : List Frame} (h : fs.filterMap tokOf = []) (i : Nat) :
    (r.sent fs).Covered i ↔ r.Covered i := by
  obtain ⟨h1, h2⟩ := sent_other (r := r) h
  unfold Rec.Covered Rec.Acked Rec.InFlight
  rw [h1, h2]
  exact Iff.rfl

theorem fin_other {r : Rec} {fs : List Frame} (h : fs.filterMap tokOf = []) :
    ((r.sent fs).FinInFlight ∨ (r.sent fs).FinAcked) ↔ (r.FinInFlight ∨ r.FinAcked) := by
  obtain ⟨h1, h2⟩ := sent_other (r := r) h
  unfold Rec.FinInFlight Rec.FinAcked
  rw [h1, h2]
  exact Iff.rfl

/-- The priority at which a reset frame is due. -/
def State.resetPrio : State → Option Prio
  | .resetSent _ _ _ prio _ _ => prio
  | .resetReliable _ _ _ _ prio _ => prio
  | _ => none

theorem hasDataAt_false {s : Stream} {p : Prio} : s.hasDataAt p = false ↔
    s.state.resetPrio ≠ some p ∧ (∀ fc, s.state = .ready fc → p = s.prio → fc.isBlocked = false) ∧
    (∀ fc tx c, s.state = .send fc tx c → p = s.prio → fc.isBlocked = false) ∧
    (∀ retrans, s.mode p = some retrans → s.hasNext retrans = false) := by
  have rest : (match s.mode p with | none => false | some retrans => s.hasNext retrans) = false ↔
      ∀ retrans, s.mode p = some retrans → s.hasNext retrans = false := by
    cases s.mode p with
    | none => simp
    | some r => simp
  unfold Stream.hasDataAt
  rw [← rest]
  cases hs : s.state with
  | resetSent err final rel prio fr fw =>
    simp only [State.resetPrio, decide_eq_false_iff_not, ne_eq, reduceCtorEq, false_implies, implies_true, true_and]
    refine ⟨fun h => ⟨h, ?_⟩, fun h => h.1⟩
    cases s.mode p with
    | none => rfl
    | some r => simp only [Stream.hasNext, hs]
  | resetReliable tx err final rel prio acked =>
    simp only [State.resetPrio, Bool.or_eq_false_iff, decide_eq_false_iff_not, ne_eq, reduceCtorEq, false_implies, implies_true, true_and]
    exact Iff.rfl
  | ready fc =>
    simp only [State.resetPrio, Bool.or_eq_false_iff, Bool.and_eq_false_iff, decide_eq_false_iff_not, ne_eq, reduceCtorEq, false_implies, implies_true, true_and,
      not_false_eq_true]
    constructor
    · rintro ⟨h1, h2⟩
      refine ⟨?_, h2⟩
      rintro fc' h3 hp
      cases h3
      exact h1.resolve_left (fun hx => hx hp)
    · rintro ⟨h1, h2⟩
      refine ⟨?_, h2⟩
      by_cases hp : p = s.prio
      · exact .inr (h1 fc rfl hp)
      · exact .inl hp
  | send fc tx c =>
    simp only [State.resetPrio, Bool.or_eq_false_iff, Bool.and_eq_false_iff, decide_eq_false_iff_not, ne_eq, reduceCtorEq, false_implies, implies_true, true_and,
      not_false_eq_true]
    constructor
    · rintro ⟨h1, h2⟩
      refine ⟨?_, h2⟩
      rintro fc' tx' c' h3 hp
      cases h3
      exact h1.resolve_left (fun hx => hx hp)
    · rintro ⟨h1, h2⟩
      refine ⟨?_, h2⟩
      by_cases hp : p = s.prio
      · exact .inr (h1 fc tx c rfl hp)
      · exact .inl hp
  | dataSent a b c d => simp [State.resetPrio]; rfl
  | dataRecvd a b => simp [State.resetPrio]; rfl
  | resetRecvd a b => simp [State.resetPrio]; rfl

theorem writeReset_due {s : Stream} {p : Prio} {rem : Nat} {s' : Stream} {w : Wrote} {b : Bool}
    (he : s.writeReset p rem = .ok (s', w, b)) :
    (s.state.resetPrio ≠ some p → w = ⟨rem, []⟩ ∧ s' = s ∧ b = false) ∧ (w.frames = [] → 40 ≤ rem → s.state.resetPrio ≠ some p) := by
  have fin40 : ∀ {err final rel n}, vlens (resetValues s.id err final rel) = .ok n → n ≤ 40 := by
    intro err final rel n hv
    have := vlens_size hv
    unfold resetValues at this
    split at this <;> simp at this <;> omega
  unfold Stream.writeReset at he
  cases hs : s.state with
  | resetSent err final rel prio fr fw =>
    rw [hs] at he
    simp only [State.resetPrio] at he ⊢
    by_cases hp : prio ≠ some p
    · rw [if_pos hp] at he; cases he
      exact ⟨fun _ => ⟨rfl, rfl, rfl⟩, fun _ _ => hp⟩
    rw [if_neg hp] at he
    refine ⟨fun h => absurd h hp, fun h0 hr => ?_⟩
    cases hv : vlens (resetValues s.id err final rel) with
    | error e => rw [hv] at he; cases he
    | ok n =>
      rw [hv] at he
      simp only at he
      have := fin40 hv
      rw [if_pos (by omega)] at he
      cases he; cases h0
  | resetReliable tx err final rel prio acked =>
    rw [hs] at he
    simp only [State.resetPrio] at he ⊢
    by_cases hp : prio ≠ some p
    · rw [if_pos hp] at he; cases he
      exact ⟨fun _ => ⟨rfl, rfl, rfl⟩, fun _ _ => hp⟩
    rw [if_neg hp] at he
    refine ⟨fun h => absurd h hp, fun h0 hr => ?_⟩
    cases hv : vlens (resetValues s.id err final rel) with
    | error e => rw [hv] at he; cases he
    | ok n =>
      rw [hv] at he
      simp only at he
      have := fin40 hv
      rw [if_pos (by omega)] at he
      cases he; cases h0
  | ready fc => rw [hs] at he; cases he; exact ⟨fun _ => ⟨rfl, rfl, rfl⟩, fun _ _ => by simp [State.resetPrio]⟩
  | send fc tx c => rw [hs] at he; cases he; exact ⟨fun _ => ⟨rfl, rfl, rfl⟩, fun _ _ => by simp [State.resetPrio]⟩
  | dataSent a b c d => rw [hs] at he; cases he; exact ⟨fun _ => ⟨rfl, rfl, rfl⟩, fun _ _ => by simp [State.resetPrio]⟩
  | dataRecvd a b => rw [hs] at he; cases he; exact ⟨fun _ => ⟨rfl, rfl, rfl⟩, fun _ _ => by simp [State.resetPrio]⟩
  | resetRecvd a b => rw [hs] at he; cases he; exact ⟨fun _ => ⟨rfl, rfl, rfl⟩, fun _ _ => by simp [State.resetPrio]⟩

/-- Everything about one call of `write_frames`.  82 bytes are room for a reset, a blocked and
a (small) STREAM frame. -/
structure FramesSpec (h : Hist) (p : Prio) (rem : Nat) (w : Wrote) : Prop where
  fits : Fits h.s.id rem w
  frame : ∀ off d fin fill, Frame.stream off d fin fill ∈ w.frames →
    (∀ j, j < off → h.r.Covered j) ∧ (h.r.resetCalled = true → off + d.length ≤ h.r.committed ∧ fin = false) ∧
    (h.r.resetCalled = false → (fin = true ↔ h.r.closed = true ∧ off + d.length = h.r.written.length)) ∧
    (d = [] → fin = true)
  one : (w.frames.filterMap tokOf).length ≤ 1
  reset : ∀ err f, Frame.reset err f ∈ w.frames → h.r.resetCalled = true ∧ f = h.r.written.length ∧ h.r.committed = 0
  resetAt : ∀ err f x, Frame.resetAt err f x ∈ w.frames → h.r.resetCalled = true ∧ f = h.r.written.length ∧
    h.r.committed ≤ x ∧ x ≤ f
  none : w.frames.filterMap tokOf = [] → 82 ≤ rem → p = h.s.prio →
    (∀ i, i < h.r.goal → h.r.Covered i) ∧ (h.r.resetCalled = false → h.r.closed = true → h.r.FinInFlight ∨ h.r.FinAcked)
  noneRetrans : w.frames.filterMap tokOf = [] → 82 ≤ rem → p = h.s.effPrio →
    (∀ i, i < h.r.goal → i < h.s.retransOff → h.r.Covered i)
  hasNot : h.s.hasDataAt p = false → w.frames = []
  has : w.frames = [] → 82 ≤ rem → h.s.hasDataAt p = false

theorem covered_no_tx {h : Hist} (hi : HInv h) (hr : isResetState h.s.state = true) (ht : h.s.state.tx? = none) :
    h.r.resetCalled = true ∧ ∀ i, i < h.r.goal → h.r.Covered i := by
  have hst := hi.st
  cases hs : h.s.state with
  | resetSent err final rel prio fr fw =>
    rw [hs] at hst
    obtain ⟨h1, h2, h3, h4, h5, h6, h7, _⟩ := hst
    refine ⟨h1, fun i hil => ?_⟩
    unfold Rec.goal at hil
    rw [h1, if_pos rfl] at hil
    exact .inl (h7 i (by omega))
  | resetRecvd a b =>
    rw [hs] at hst
    obtain ⟨h1, h2, h3, h4, _⟩ := hst
    refine ⟨h1, fun i hil => ?_⟩
    unfold Rec.goal at hil
    rw [h1, if_pos rfl] at hil
    exact .inl (h4 i hil)
  | resetReliable _ _ _ _ _ _ => rw [hs] at ht; cases ht
  | ready _ => rw [hs] at hr; cases hr
  | send _ _ _ => rw [hs] at hr; cases hr
  | dataSent _ _ _ _ => rw [hs] at hr; cases hr
  | dataRecvd _ _ => rw [hs] at hr; cases hr

theorem Fits.append {id rem : Nat} {w1 w2 : Wrote} (h1 : Fits id rem w1) (h2 : Fits id w1.rem w2) :
    Fits id rem ⟨w2.rem, w1.frames ++ w2.frames⟩ := by
  obtain ⟨n, a, b⟩ := h1
  obtain ⟨m, c, d⟩ := h2
  exact ⟨n + m, framesSize_append a c, by simp only; omega⟩

theorem tokOf_reset (err f rel : Nat) : [resetFrame err f rel].filterMap tokOf = [] := by
  unfold resetFrame; split <;> rfl

theorem mem_reset {err f rel e g : Nat} (h : Frame.reset e g = resetFrame err f rel) : g = f ∧ rel = 0 := by
  unfold resetFrame at h
  split at h
  · cases h; exact ⟨rfl, by assumption⟩
  · cases h

theorem mem_resetAt {err f rel e g x : Nat} (h : Frame.resetAt e g x = resetFrame err f rel) : g = f ∧ x = rel := by
  unfold resetFrame at h
  split at h
  · cases h
  · cases h; exact ⟨rfl, rfl⟩

theorem stream_ne_reset {off : Nat} {d : Bytes} {fin fill : Bool} {err f rel : Nat} :
    Frame.stream off d fin fill ≠ resetFrame err f rel := by
  unfold resetFrame; split <;> simp

theorem writeFrames_spec {h : Hist} (hi : HInv h) {conn : SFc} {p : Prio} {rem split : Nat} {s' : Stream} {conn' : SFc}
    {w : Wrote} (he : h.s.writeFrames conn p rem split = .ok (s', conn', w)) : FramesSpec h p rem w := by
  obtain ⟨s1, w1, b, e1, h1⟩ := writeReset_ok hi p rem
  obtain ⟨a1, a2, a3, a4, a5, a6, a7, a8, a9, a10⟩ := writeReset_spec hi e1
  obtain ⟨u1, u2⟩ := writeReset_due e1
  unfold Stream.writeFrames at he
  rw [e1] at he
  have t1 : w1.frames.filterMap tokOf = [] := by
    rcases a2 with a2 | ⟨err, rel, a2, _⟩
    · rw [a2]; rfl
    · rw [a2]; exact tokOf_reset _ _ _
  have r1 : ∀ err f, Frame.reset err f ∈ w1.frames → h.r.resetCalled = true ∧ f = h.r.written.length ∧ h.r.committed = 0 := by
    intro err f hm
    rcases a2 with a2 | ⟨er, rel, a2, b1, b2, b3⟩
    · rw [a2] at hm; cases hm
    · rw [a2, List.mem_singleton] at hm
      obtain ⟨c1, c2⟩ := mem_reset hm
      exact ⟨b1, c1, by omega⟩
  have r2 : ∀ err f x, Frame.resetAt err f x ∈ w1.frames → h.r.resetCalled = true ∧ f = h.r.written.length ∧
      h.r.committed ≤ x ∧ x ≤ f := by
    intro err f x hm
    rcases a2 with a2 | ⟨er, rel, a2, b1, b2, b3⟩
    · rw [a2] at hm; cases hm
    · rw [a2, List.mem_singleton] at hm
      obtain ⟨c1, c2⟩ := mem_resetAt hm
      exact ⟨b1, c1, by omega, by omega⟩
  have s1f : ∀ off d fin fill, Frame.stream off d fin fill ∉ w1.frames := by
    intro off d fin fill hm
    rcases a2 with a2 | ⟨er, rel, a2, _⟩
    · rw [a2] at hm; cases hm
    · rw [a2, List.mem_singleton] at hm; exact stream_ne_reset hm
  cases b with
  | true =>
    cases he
    obtain ⟨b1, b2, b3⟩ := a3 rfl
    obtain ⟨c1, c2⟩ := covered_no_tx hi b2 b3
    refine ⟨a1, fun off d fin fill hm => absurd hm (s1f off d fin fill), by rw [t1]; exact Nat.zero_le _, r1, r2,
      fun _ _ _ => ⟨c2, fun hx => ?_⟩, fun _ _ _ i hil _ => c2 i hil, fun hx => ?_, fun hx => absurd hx b1⟩
    · rw [c1] at hx; cases hx
    · exact congrArg Wrote.frames (u1 (hasDataAt_false.mp hx).1).1
  | false =>
    simp only at he
    obtain ⟨s2, w2, e2, h2⟩ := writeBlocked_ok h1 p w1.rem
    simp only at e2
    rw [e2] at he
    simp only at he
    rw [sent_append] at h2
    obtain ⟨d1, d2, d3, d4, d5, d6, d7, d8, d9, d10, d11, d12, d13⟩ := writeBlocked_spec e2
    rw [a8] at d1
    have t2 : w2.frames.filterMap tokOf = [] := by
      rcases d2 with d2 | ⟨l, d2⟩ <;> rw [d2] <;> rfl
    have t12 : (w1.frames ++ w2.frames).filterMap tokOf = [] := by rw [List.filterMap_append, t1, t2]; rfl
    have m2 : ∀ f ∈ w2.frames, ∃ l, f = .blocked l := by
      intro f hf
      rcases d2 with d2 | ⟨l, d2⟩
      · rw [d2] at hf; cases hf
      · rw [d2, List.mem_singleton] at hf; exact ⟨l, hf⟩
    have f12 := a1.append d1
    have hrem : rem ≤ 64 + w2.rem := by omega
    have hasb : h.s.hasDataAt p = false → w1 = ⟨rem, []⟩ ∧ s1 = h.s ∧ w2.frames = [] := by
      intro hx
      obtain ⟨g1, g2, g3, g4⟩ := hasDataAt_false.mp hx
      obtain ⟨k1, k2, _⟩ := u1 g1
      refine ⟨k1, k2, d12 ?_ ?_⟩
      · rw [k2]; exact g2
      · rw [k2]; exact g3
    by_cases hsmall : w2.rem < minFrame
    · rw [if_pos hsmall] at he
      cases he
      have hn82 : ¬ 82 ≤ rem := by unfold minFrame at hsmall; omega
      refine ⟨f12, fun off d fin fill hm => ?_, by simp only; rw [t12]; exact Nat.zero_le _, ?_, ?_, fun _ hx => absurd hx hn82, fun _ hx => absurd hx hn82,
        fun hx => ?_, fun _ hx => absurd hx hn82⟩
      · simp only [List.mem_append] at hm
        rcases hm with hm | hm
        · exact absurd hm (s1f _ _ _ _)
        · obtain ⟨l, hl⟩ := m2 _ hm; cases hl
      · intro err f hm
        simp only [List.mem_append] at hm
        rcases hm with hm | hm
        · exact r1 err f hm
        · obtain ⟨l, hl⟩ := m2 _ hm; cases hl
      · intro err f x hm
        simp only [List.mem_append] at hm
        rcases hm with hm | hm
        · exact r2 err f x hm
        · obtain ⟨l, hl⟩ := m2 _ hm; cases hl
      · obtain ⟨k1, k2, k3⟩ := hasb hx
        simp only [k1, k3, List.append_nil]
    · rw [if_neg hsmall] at he
      obtain ⟨s3, conn3, w3, e3, h3⟩ := writeStream_ok h2 conn p w2.rem split
      simp only at e3
      rw [e3] at he
      cases he
      have sp := writeStream_spec h2 (by exact e3)
      have hmode : ∀ q, s2.mode q = h.s.mode q := by
        intro q
        rw [d8]
        unfold Stream.mode; rw [a5, a6]
      have cov : ∀ i, (h.r.sent (w1.frames ++ w2.frames)).Covered i ↔ h.r.Covered i := fun i => covered_other t12 i
      have hgoal : (h.r.sent (w1.frames ++ w2.frames)).goal = h.r.goal := rfl
      refine ⟨?_, fun off d fin fill hm => ?_, ?_, ?_, ?_, fun h0 hr hp => ?_, fun h0 hr hp => ?_,
        fun hx => ?_, fun h0 hr => ?_⟩
      · refine f12.append (w1 := ⟨w2.rem, w1.frames ++ w2.frames⟩) ?_
        have := sp.fits
        simp only [d7, a8] at this
        exact this
      · simp only [List.mem_append] at hm
        rcases hm with (hm | hm) | hm
        · exact absurd hm (s1f _ _ _ _)
        · obtain ⟨l, hl⟩ := m2 _ hm; cases hl
        · obtain ⟨q1, q2, q3, q4⟩ := sp.frame off d fin fill hm
          exact ⟨fun j hj => (cov j).mp (q1 j hj), q2, q3, q4⟩
      · simp only
        rw [List.filterMap_append, t12, List.nil_append]
        rcases sp.shape with hx | ⟨_, _, _, _, hx⟩ <;> rw [hx]
        · exact Nat.zero_le _
        · exact Nat.le_refl _
      · intro err f hm
        simp only [List.mem_append] at hm
        rcases hm with (hm | hm) | hm
        · exact r1 err f hm
        · obtain ⟨l, hl⟩ := m2 _ hm; cases hl
        · rcases sp.shape with hx | ⟨_, _, _, _, hx⟩ <;> rw [hx] at hm
          · cases hm
          · rw [List.mem_singleton] at hm; cases hm
      · intro err f x hm
        simp only [List.mem_append] at hm
        rcases hm with (hm | hm) | hm
        · exact r2 err f x hm
        · obtain ⟨l, hl⟩ := m2 _ hm; cases hl
        · rcases sp.shape with hx | ⟨_, _, _, _, hx⟩ <;> rw [hx] at hm
          · cases hm
          · rw [List.mem_singleton] at hm; cases hm
      · simp only at h0
        rw [List.filterMap_append, t12, List.nil_append] at h0
        have h3e : w3.frames = [] := by
          rcases sp.shape with hx | ⟨_, _, _, _, hx⟩
          · exact hx
          · rw [hx] at h0; cases h0
        obtain ⟨q1, q2⟩ := sp.none h3e (by omega) (by simp only; rw [d4, a5]; exact hp)
        refine ⟨fun i hil => (cov i).mp (q1 i hil), fun g1 g2 => (fin_other t12).mp (q2 g1 g2)⟩
      · simp only at h0
        rw [List.filterMap_append, t12, List.nil_append] at h0
        have h3e : w3.frames = [] := by
          rcases sp.shape with hx | ⟨_, _, _, _, hx⟩
          · exact hx
          · rw [hx] at h0; cases h0
        have q1 := sp.noneRetrans h3e (by omega) (by simp only; rw [d5, a6]; exact hp)
        intro i hil hi2
        exact (cov i).mp (q1 i hil (by simp only; rw [d6, a7]; exact hi2))
      · obtain ⟨k1, k2, k3⟩ := hasb hx
        have h4 := (hasDataAt_false.mp hx).2.2.2
        have : w3.frames = [] := by
          apply sp.has
          intro r hr
          simp only at hr ⊢
          rw [d9, k2]
          exact h4 r (by rw [← hmode]; exact hr)
        simp only [k1, k3, this, List.append_nil]
      · simp only [List.append_eq_nil_iff] at h0
        obtain ⟨⟨k1, k2⟩, k3⟩ := h0
        have ks := a4 k1
        rw [hasDataAt_false]
        have hr1 : 24 ≤ w1.rem := by omega
        obtain ⟨g1, g2⟩ := d13 k2 hr1
        rw [ks] at g1 g2
        refine ⟨u2 k1 (by omega), g1, g2, fun r hr => ?_⟩
        have := sp.hasNot k3 (by omega) r (by simp only; rw [hmode]; exact hr)
        simp only at this
        rw [d9, ks] at this
        exact this

end Neqo.Send
