import Verif.SendStream.FramesSpec

/-!
# Send-stream properties: C17, C18, C19, C20, C21, C48, C49

`Reached h`: some sequence of operations (application calls, received frames, chances to write
packets, acknowledgements and losses of frames that were sent, in any order) leads from a new
stream to `h`.  `h.r` is the record of what was observable from outside.
-/
namespace Neqo.Send
open Neqo.Codec (Bytes maxVarint)
open Neqo.Flow (SFc)

theorem reached_inv {h : Hist} (hr : Reached h) : HInv h := by
  obtain ⟨id, m, conn, ops, h1, h2, h3, h4⟩ := hr
  obtain ⟨h', e1, e2⟩ := hist_run_ok (hinv_new h1 h2 conn) h3
  rw [h4] at e1; cases e1
  exact e2

theorem run_append {h h' : Hist} {a b : List (SFc × Op)} (h1 : h.run a = .ok h') : h.run (a ++ b) = h'.run b := by
  induction a generalizing h with
  | nil => cases h1; rfl
  | cons p a ih =>
    obtain ⟨conn, op⟩ := p
    simp only [Hist.run, Except.bind_eq_ok] at h1
    obtain ⟨⟨h2, c2, o2⟩, e1, e2⟩ := h1
    simp only [List.cons_append, Hist.run, e1]
    exact ih e2

theorem reached_step {h h' : Hist} {conn conn' : SFc} {op : Op} {out : Out} (hr : Reached h) (hv : op.Valid)
    (hs : h.step conn op = .ok (h', conn', out)) : Reached h' := by
  obtain ⟨id, m, conn0, ops, h1, h2, h3, h4⟩ := hr
  refine ⟨id, m, conn0, ops ++ [(conn, op)], h1, h2, fun p hp => ?_, ?_⟩
  · simp only [List.mem_append, List.mem_singleton] at hp
    rcases hp with hp | rfl
    · exact h3 p hp
    · exact hv
  · rw [run_append h4]
    simp only [Hist.run, hs]
    rfl

/-- Writing frames in terms of `step`. -/
theorem step_frames {h h' : Hist} {conn conn' : SFc} {p : Prio} {rem split : Nat} {out : Out}
    (hs : h.step conn (.frames p rem split) = .ok (h', conn', out)) :
    ∃ w, out = .wrote w ∧ h.s.writeFrames conn p rem split = .ok (h'.s, conn', w) ∧ h'.r = h.r.sent w.frames := by
  simp only [Hist.step, Except.bind_eq_ok] at hs
  obtain ⟨⟨s', c', w⟩, e1, e2⟩ := hs
  cases e2
  exact ⟨w, rfl, e1, rfl⟩

/-! ## C17: right bytes, nothing lost -/

/-- No history makes a send stream panic. -/
theorem C17_no_panic {id m : Nat} {conn : SFc} {ops : List (SFc × Op)} (h1 : id ≤ maxVarint) (h2 : m ≤ maxVarint)
    (h3 : ∀ p ∈ ops, p.2.Valid) : ∃ h, (Hist.new id m conn).run ops = .ok h :=
  let ⟨h, e, _⟩ := hist_run_ok (hinv_new h1 h2 conn) h3
  ⟨h, e⟩

/-- Every STREAM frame ever sent carries exactly the bytes that were written at its offset. -/
theorem C17_frames_carry_written {h : Hist} (hr : Reached h) {off : Nat} {d : Bytes} {fin fill : Bool}
    (hf : Frame.stream off d fin fill ∈ h.r.frames) :
    off + d.length ≤ h.r.written.length ∧ ∀ i, i < d.length → d[i]? = h.r.written[off + i]? := by
  have hi := reached_inv hr
  have hmem : (⟨off, d.length, fin⟩ : Tok) ∈ h.r.toks := by
    rw [hi.rcd.toks]
    exact List.mem_filterMap.mpr ⟨_, hf, rfl⟩
  refine ⟨hi.rcd.le _ hmem, fun i hil => ?_⟩
  conv => lhs; rw [hi.rcd.data off d fin fill hf]
  rw [List.getElem?_take_of_lt hil, List.getElem?_drop]

theorem buffered_of_marks {h : Hist} {tx : Tx} (ht : h.s.state.tx? = some tx) (hm : Marks tx h.r) {i : Nat}
    (hil : i < h.r.written.length) (ha : ¬ h.r.Acked i) : h.s.Buffered h.r.written i := by
  refine ⟨tx, ?_, ?_, ?_⟩
  · cases hs : h.s.state <;> rw [hs] at ht <;> exact ht
  · rcases Nat.lt_or_ge i tx.retired with h1 | h1
    · exact absurd (hm.prefix_acked h1) ha
    · exact h1
  · have h1 : tx.retired ≤ i := by
      rcases Nat.lt_or_ge i tx.retired with h1 | h1
      · exact absurd (hm.prefix_acked h1) ha
      · exact h1
    rw [hm.ok.buf, List.getElem?_drop]
    congr 1
    unfold Tx.retired at h1 ⊢
    omega

/-- As long as the stream is not reset, every byte that was written and not acknowledged is still
buffered. -/
theorem C17_unacked_kept {h : Hist} (hr : Reached h) (hn : h.r.resetCalled = false) {i : Nat}
    (hil : i < h.r.written.length) (ha : ¬ h.r.Acked i) : h.s.Buffered h.r.written i := by
  have hi := reached_inv hr
  have hst := hi.st
  cases hs : h.s.state with
  | ready fc => rw [hs] at hst; rw [hst.1] at hil; exact absurd hil (Nat.not_lt_zero _)
  | send fc tx c => exact buffered_of_marks (tx := tx) (by rw [hs]; rfl) (hst.marks (by rw [hs]; rfl)) hil ha
  | dataSent tx a b c => exact buffered_of_marks (tx := tx) (by rw [hs]; rfl) (hst.marks (by rw [hs]; rfl)) hil ha
  | dataRecvd a b =>
    rw [hs] at hst
    obtain ⟨_, _, _, _, _, _, _, h8, _⟩ := hst
    exact absurd (h8 i hil) ha
  | resetSent _ _ _ _ _ _ => rw [hs] at hst; rw [hst.1] at hn; cases hn
  | resetReliable _ _ _ _ _ _ => rw [hs] at hst; rw [hst.1] at hn; cases hn
  | resetRecvd _ _ => rw [hs] at hst; rw [hst.1] at hn; cases hn

/-! ## C18: unsent and lost data is offered, lowest offset first -/

/-- Whatever precedes the offset of a STREAM frame has been acknowledged or is in flight: the
lowest byte that needs sending goes first. -/
theorem C18_lowest_first {h h' : Hist} (hr : Reached h) {conn conn' : SFc} {p : Prio} {rem split : Nat} {w : Wrote}
    (hs : h.step conn (.frames p rem split) = .ok (h', conn', .wrote w)) {off : Nat} {d : Bytes} {fin fill : Bool}
    (hf : Frame.stream off d fin fill ∈ w.frames) : ∀ j, j < off → h.r.Acked j ∨ h.r.InFlight j := by
  obtain ⟨w', e1, e2, _⟩ := step_frames hs
  cases e1
  exact ((writeFrames_spec (reached_inv hr) e2).frame off d fin fill hf).1

/-- A packet with room, at the stream's priority, carries a STREAM frame whenever some byte that
the peer must get is neither acknowledged nor in flight. -/
theorem C18_offered {h h' : Hist} (hr : Reached h) {conn conn' : SFc} {rem split : Nat} {w : Wrote}
    (hs : h.step conn (.frames h.s.prio rem split) = .ok (h', conn', .wrote w)) (hroom : 82 ≤ rem) {i : Nat}
    (hil : i < h.r.goal) (ha : ¬ h.r.Acked i) (hfl : ¬ h.r.InFlight i) :
    ∃ off d fin fill, Frame.stream off d fin fill ∈ w.frames ∧ d ≠ [] ∧ off ≤ i := by
  obtain ⟨w', e1, e2, _⟩ := step_frames hs
  cases e1
  have hi := reached_inv hr
  have sp := writeFrames_spec hi e2
  cases hw : w.frames.filterMap tokOf with
  | nil =>
    have := (sp.none hw hroom rfl).1 i hil
    exact absurd this (by rintro (h | h); exacts [ha h, hfl h])
  | cons t ts =>
    have ht : t ∈ w.frames.filterMap tokOf := by rw [hw]; simp
    obtain ⟨f, hf, hft⟩ := List.mem_filterMap.mp ht
    cases f with
    | stream off d fin fill =>
      have hoff : off ≤ i := by
        rcases Nat.lt_or_ge i off with h1 | h1
        · rcases (sp.frame off d fin fill hf).1 i h1 with h | h
          · exact absurd h ha
          · exact absurd h hfl
        · exact h1
      refine ⟨off, d, fin, fill, hf, fun hd => ?_, hoff⟩
      have hfin := (sp.frame off d fin fill hf).2.2.2 hd
      cases hrc : h.r.resetCalled with
      | true =>
        have := ((sp.frame off d fin fill hf).2.1 hrc).2
        rw [hfin] at this; cases this
      | false =>
        have := (((sp.frame off d fin fill hf).2.2.1 hrc).mp hfin).2
        rw [hd] at this
        unfold Rec.goal at hil
        rw [hrc] at hil
        simp at this hil
        omega
    | reset _ _ => cases hft
    | resetAt _ _ _ => cases hft
    | blocked _ => cases hft

/-- If such a packet carries no STREAM frame, everything is acknowledged or in flight, and so is the
fin of a closed stream. -/
theorem C18_nothing_offered {h h' : Hist} (hr : Reached h) {conn conn' : SFc} {rem split : Nat} {w : Wrote}
    (hs : h.step conn (.frames h.s.prio rem split) = .ok (h', conn', .wrote w)) (hroom : 82 ≤ rem)
    (hno : ∀ off d fin fill, Frame.stream off d fin fill ∉ w.frames) :
    (∀ i, i < h.r.goal → h.r.Acked i ∨ h.r.InFlight i) ∧
    (h.r.resetCalled = false → h.r.closed = true → h.r.FinInFlight ∨ h.r.FinAcked) := by
  obtain ⟨w', e1, e2, _⟩ := step_frames hs
  cases e1
  have sp := writeFrames_spec (reached_inv hr) e2
  refine sp.none ?_ hroom rfl
  rw [List.filterMap_eq_nil_iff]
  intro f hf
  cases f with
  | stream off d fin fill => exact absurd hf (hno off d fin fill)
  | _ => rfl

/-! ## C19: completion -/

theorem C19_complete_once {h : Hist} (hr : Reached h) : h.s.events.count .complete ≤ 1 := by
  have hst := (reached_inv hr).st
  have hz : Ev.complete ∉ h.s.events → h.s.events.count .complete ≤ 1 := by
    intro hx; rw [List.count_eq_zero_of_not_mem hx]; exact Nat.zero_le _
  cases hs : h.s.state with
  | ready fc => rw [hs] at hst; exact hz hst.2.2.2.2.2.2.1
  | send fc tx c => rw [hs] at hst; exact hz hst.2.2.2.2.1
  | dataSent tx a b c => rw [hs] at hst; exact hz hst.2.2.2.2.1
  | dataRecvd a b => rw [hs] at hst; exact Nat.le_of_eq hst.2.2.2.2.1
  | resetSent _ _ _ _ _ _ => rw [hs] at hst; exact hz hst.2.1
  | resetReliable _ _ _ _ _ _ => rw [hs] at hst; exact hz hst.2.1
  | resetRecvd _ _ => rw [hs] at hst; exact hz hst.2.1

/-- The completion event means: closed, never reset, and every byte and the fin acknowledged. -/
theorem C19_complete_means_acked {h : Hist} (hr : Reached h) (hc : Ev.complete ∈ h.s.events) :
    h.r.closed = true ∧ h.r.resetCalled = false ∧ (∀ i, i < h.r.written.length → h.r.Acked i) ∧ h.r.FinAcked := by
  have hst := (reached_inv hr).st
  cases hs : h.s.state with
  | ready fc => rw [hs] at hst; exact absurd hc hst.2.2.2.2.2.2.1
  | send fc tx c => rw [hs] at hst; exact absurd hc hst.2.2.2.2.1
  | dataSent tx a b c => rw [hs] at hst; exact absurd hc hst.2.2.2.2.1
  | dataRecvd a b =>
    rw [hs] at hst
    obtain ⟨h1, h2, h3, h4, h5, h6, h7, h8, h9⟩ := hst
    exact ⟨h1, h2, h8, h9⟩
  | resetSent _ _ _ _ _ _ => rw [hs] at hst; exact absurd hc hst.2.1
  | resetReliable _ _ _ _ _ _ => rw [hs] at hst; exact absurd hc hst.2.1
  | resetRecvd _ _ => rw [hs] at hst; exact absurd hc hst.2.1

theorem Marks.retired_not_acked {tx : Tx} {r : Rec} (h : Marks tx r) : ¬ r.Acked tx.retired := by
  rw [← h.acked]
  rintro (h1 | ⟨e, he, h2, h3, h4⟩)
  · exact absurd h1 (Nat.lt_irrefl _)
  · have := h.ok.ranges.lowA e he h2
    unfold Tx.retired at h3
    omega

/-- And it does come: once a closed stream that was not reset has everything acknowledged, the
event has been emitted. -/
theorem C19_acked_means_complete {h : Hist} (hr : Reached h) (hc : h.r.closed = true) (hn : h.r.resetCalled = false)
    (ha : ∀ i, i < h.r.written.length → h.r.Acked i) (hf : h.r.FinAcked) : Ev.complete ∈ h.s.events := by
  have hst := (reached_inv hr).st
  cases hs : h.s.state with
  | ready fc => rw [hs] at hst; rw [hst.2.2.1] at hc; cases hc
  | send fc tx c => rw [hs] at hst; rw [hst.1] at hc; cases hc
  | dataSent tx fs fa c =>
    rw [hs] at hst
    obtain ⟨h1, h2, h3, h4, h5, h6, h7, h8, h9, h10⟩ := hst
    exfalso
    apply h10
    refine ⟨h9.mpr hf, ?_⟩
    have hu : tx.retired + tx.buf.length = h.r.written.length := h6.ok.used
    rcases Nat.eq_zero_or_pos tx.buf.length with h0 | h0
    · exact h0
    · exact absurd (ha tx.retired (by omega)) h6.retired_not_acked
  | dataRecvd a b =>
    rw [hs] at hst
    obtain ⟨h1, h2, h3, h4, h5, _⟩ := hst
    rw [← List.one_le_count_iff]; omega
  | resetSent _ _ _ _ _ _ => rw [hs] at hst; rw [hst.1] at hn; cases hn
  | resetReliable _ _ _ _ _ _ => rw [hs] at hst; rw [hst.1] at hn; cases hn
  | resetRecvd _ _ => rw [hs] at hst; rw [hst.1] at hn; cases hn

/-! ## C20: the final size -/

theorem sent_written (r : Rec) (fs : List Frame) : (r.sent fs).written = r.written := rfl

theorem open_state {h : Hist} (hi : HInv h) (hc : h.r.closed = true ∨ h.r.resetCalled = true) :
    (∀ fc, h.s.state ≠ .ready fc) ∧ ∀ fc tx c, h.s.state ≠ .send fc tx c := by
  have hst := hi.st
  constructor
  · intro fc hs
    rw [hs] at hst
    rcases hc with hc | hc
    · rw [hst.2.2.1] at hc; cases hc
    · rw [hst.2.2.2.1] at hc; cases hc
  · intro fc tx c hs
    rw [hs] at hst
    rcases hc with hc | hc
    · rw [hst.1] at hc; cases hc
    · rw [hst.2.1] at hc; cases hc

/-- Once the stream is closed or reset, nothing changes how much was written. -/
theorem C20_final_size_fixed {h h' : Hist} (hr : Reached h) (hc : h.r.closed = true ∨ h.r.resetCalled = true)
    {conn conn' : SFc} {op : Op} {out : Out} (hs : h.step conn op = .ok (h', conn', out)) :
    h'.r.written = h.r.written := by
  have hi := reached_inv hr
  obtain ⟨n1, n2⟩ := open_state hi hc
  cases op with
  | write data atomic =>
    simp only [Hist.step, Except.bind_eq_ok] at hs
    obtain ⟨⟨s', c', res⟩, e1, e2⟩ := hs
    have hres : ∃ e, res = .err e := by
      unfold Stream.sendInternal at e1
      split at e1
      · cases e1; exact ⟨_, rfl⟩
      · have hts : h.s.toSend = h.s := by
          unfold Stream.toSend
          cases hx : h.s.state with
          | ready fc => exact absurd hx (n1 fc)
          | _ => rfl
        simp only [hts] at e1
        cases hx : h.s.state with
        | ready fc => exact absurd hx (n1 fc)
        | send fc tx c => exact absurd hx (n2 fc tx c)
        | _ => cases e1; exact ⟨_, rfl⟩
    obtain ⟨e, rfl⟩ := hres
    cases e2; rfl
  | close => cases hs; rfl
  | commit =>
    simp only [Hist.step] at hs
    split at hs <;> cases hs <;> rfl
  | reset err => cases hs; rfl
  | stopSending err => cases hs; rfl
  | setPriority p e => cases hs; rfl
  | setWatermark w => cases hs; rfl
  | maxStreamData l =>
    simp only [Hist.step, Except.bind_eq_ok] at hs
    obtain ⟨_, _, e⟩ := hs
    cases e; rfl
  | frames p rem split =>
    obtain ⟨w, _, _, e⟩ := step_frames hs
    rw [e]; rfl
  | acked k =>
    simp only [Hist.step] at hs
    split at hs
    · cases hs; rfl
    · simp only [Except.bind_eq_ok] at hs
      obtain ⟨_, _, e⟩ := hs
      cases e; rfl
  | lost k =>
    simp only [Hist.step] at hs
    split at hs
    · cases hs; rfl
    · simp only [Except.bind_eq_ok] at hs
      obtain ⟨_, _, e⟩ := hs
      cases e; rfl
  | resetAcked =>
    simp only [Hist.step] at hs
    split at hs <;> cases hs <;> rfl
  | resetLost =>
    simp only [Hist.step] at hs
    split at hs
    · simp only [Except.bind_eq_ok] at hs
      obtain ⟨_, _, e⟩ := hs
      cases e; rfl
    · cases hs; rfl
  | blockedLost l => cases hs; rfl
  | connRaised p c =>
    simp only [Hist.step, Except.bind_eq_ok] at hs
    obtain ⟨_, _, e⟩ := hs
    cases e; rfl

/-- The reported final size is the number of bytes written. -/
theorem C20_final_size_exact {h : Hist} (hr : Reached h) {n : Nat} (hn : h.s.finalSize = some n) :
    n = h.r.written.length := by
  have hst := (reached_inv hr).st
  unfold Stream.finalSize at hn
  cases hs : h.s.state with
  | dataSent tx a b c => rw [hs] at hn hst; cases hn; exact (StOk.marks hst (tx := tx) rfl).ok.used
  | resetSent _ f _ _ _ _ => rw [hs] at hn hst; cases hn; exact hst.2.2.1
  | resetReliable _ _ f _ _ _ => rw [hs] at hn hst; cases hn; exact hst.2.2.1
  | ready _ => rw [hs] at hn; cases hn
  | send _ _ _ => rw [hs] at hn; cases hn
  | dataRecvd _ _ => rw [hs] at hn; cases hn
  | resetRecvd _ _ => rw [hs] at hn; cases hn

/-- A fin was only ever sent after the application closed the stream, on a frame that ends exactly
at the final size; every reset frame gives the final size. -/
theorem C20_fin_at_final_size {h : Hist} (hr : Reached h) :
    (∀ off d fill, Frame.stream off d true fill ∈ h.r.frames → h.r.closed = true ∧ off + d.length = h.r.written.length) ∧
    (∀ e f, Frame.reset e f ∈ h.r.frames → h.r.resetCalled = true ∧ f = h.r.written.length) ∧
    (∀ e f x, Frame.resetAt e f x ∈ h.r.frames → h.r.resetCalled = true ∧ f = h.r.written.length) := by
  have hi := reached_inv hr
  refine ⟨fun off d fill hf => ?_, hi.rcd.reset, hi.rcd.resetAt⟩
  have hmem : (⟨off, d.length, true⟩ : Tok) ∈ h.r.toks := by
    rw [hi.rcd.toks]
    exact List.mem_filterMap.mpr ⟨_, hf, rfl⟩
  exact hi.rcd.fin _ hmem rfl

/-- While the stream is not reset, a frame has the fin bit exactly if the stream is closed and the
frame reaches the final size. -/
theorem C20_fin_iff {h h' : Hist} (hr : Reached h) {conn conn' : SFc} {p : Prio} {rem split : Nat} {w : Wrote}
    (hs : h.step conn (.frames p rem split) = .ok (h', conn', .wrote w)) (hn : h.r.resetCalled = false) {off : Nat} {d : Bytes}
    {fin fill : Bool} (hf : Frame.stream off d fin fill ∈ w.frames) :
    fin = true ↔ h.r.closed = true ∧ off + d.length = h.r.written.length := by
  obtain ⟨w', e1, e2, _⟩ := step_frames hs
  cases e1
  exact ((writeFrames_spec (reached_inv hr) e2).frame off d fin fill hf).2.2.1 hn

/-! ## C21: reliable reset -/

/-- The committed prefix stays buffered until acknowledged, whatever resets happen. -/
theorem C21_committed_kept {h : Hist} (hr : Reached h) {i : Nat} (hil : i < h.r.committed) (ha : ¬ h.r.Acked i) :
    h.s.Buffered h.r.written i := by
  have hi := reached_inv hr
  have hcm := hi.rcd.comm
  cases hrc : h.r.resetCalled with
  | false => exact C17_unacked_kept hr hrc (by omega) ha
  | true =>
    have hst := hi.st
    cases hs : h.s.state with
    | resetReliable tx err final rel prio acked =>
      exact buffered_of_marks (tx := tx) (by rw [hs]; rfl) (hst.marks (by rw [hs]; rfl)) (by omega) ha
    | resetSent err final rel prio fr fw =>
      rw [hs] at hst
      obtain ⟨h1, h2, h3, h4, h5, h6, h7, _⟩ := hst
      exact absurd (h7 i (by omega)) ha
    | resetRecvd a b =>
      rw [hs] at hst
      obtain ⟨h1, h2, h3, h4, _⟩ := hst
      exact absurd (h4 i hil) ha
    | ready _ => rw [hs] at hst; rw [hst.2.2.2.1] at hrc; cases hrc
    | send _ _ _ => rw [hs] at hst; rw [hst.2.1] at hrc; cases hrc
    | dataSent _ _ _ _ => rw [hs] at hst; rw [hst.2.1] at hrc; cases hrc
    | dataRecvd _ _ => rw [hs] at hst; rw [hst.2.1] at hrc; cases hrc

/-- After a reset no STREAM frame reaches beyond the committed prefix and none has the fin bit;
reset frames announce at least the committed prefix, and a plain RESET_STREAM only if there is none. -/
theorem C21_nothing_beyond_commitment {h h' : Hist} (hr : Reached h) {conn conn' : SFc} {p : Prio} {rem split : Nat}
    {w : Wrote} (hs : h.step conn (.frames p rem split) = .ok (h', conn', .wrote w)) :
    (h.r.resetCalled = true → ∀ off d fin fill, Frame.stream off d fin fill ∈ w.frames →
      off + d.length ≤ h.r.committed ∧ fin = false) ∧
    (∀ err f x, Frame.resetAt err f x ∈ w.frames → h.r.committed ≤ x ∧ x ≤ h.r.written.length) ∧
    (∀ err f, Frame.reset err f ∈ w.frames → h.r.committed = 0) := by
  obtain ⟨w', e1, e2, _⟩ := step_frames hs
  cases e1
  have sp := writeFrames_spec (reached_inv hr) e2
  refine ⟨fun hrc off d fin fill hf => (sp.frame off d fin fill hf).2.1 hrc, fun err f x hf => ?_, fun err f hf => (sp.reset err f hf).2.2⟩
  obtain ⟨_, h2, h3, h4⟩ := sp.resetAt err f x hf
  exact ⟨h3, by omega⟩

/-- A reset stream ends exactly when a reset frame and the whole committed prefix are acknowledged. -/
theorem C21_ends_iff {h : Hist} (hr : Reached h) (hrc : h.r.resetCalled = true) :
    h.s.isEnded = true ↔ h.r.resetAck = true ∧ ∀ i, i < h.r.committed → h.r.Acked i := by
  have hi := reached_inv hr
  have hst := hi.st
  have hcm := hi.rcd.comm
  unfold Stream.isEnded
  cases hs : h.s.state with
  | resetReliable tx err final rel prio acked =>
    have hm := hst.marks (tx := tx) (by rw [hs]; rfl)
    rw [hs] at hst
    obtain ⟨h1, h2, h3, h4, h5, h6, h7, h8, h9⟩ := hst
    refine iff_of_false (by simp) ?_
    rintro ⟨_, hx⟩
    exact hm.retired_not_acked (hx _ (by omega))
  | resetSent err final rel prio fr fw =>
    rw [hs] at hst
    obtain ⟨h1, h2, h3, h4, h5, h6, h7, h8, h9, h10, h11⟩ := hst
    refine iff_of_false (by simp) ?_
    rintro ⟨hx, _⟩
    rw [h10] at hx; cases hx
  | resetRecvd a b =>
    rw [hs] at hst
    obtain ⟨h1, h2, h3, h4, h5, h6⟩ := hst
    exact iff_of_true rfl ⟨h6, h4⟩
  | ready _ => rw [hs] at hst; rw [hst.2.2.2.1] at hrc; cases hrc
  | send _ _ _ => rw [hs] at hst; rw [hst.2.1] at hrc; cases hrc
  | dataSent _ _ _ _ => rw [hs] at hst; rw [hst.2.1] at hrc; cases hrc
  | dataRecvd _ _ => rw [hs] at hst; rw [hst.2.1] at hrc; cases hrc

/-! ## C49: frames fit, and `has_data_at` predicts them -/

/-- The encoded frames never take more room than there was, and what is reported as left is really
left. -/
theorem C49_frames_fit {h h' : Hist} (hr : Reached h) {conn conn' : SFc} {p : Prio} {rem split : Nat} {w : Wrote}
    (hs : h.step conn (.frames p rem split) = .ok (h', conn', .wrote w)) :
    ∃ n, framesSize h.s.id w.frames = .ok n ∧ w.rem + n ≤ rem := by
  obtain ⟨w', e1, e2, _⟩ := step_frames hs
  cases e1
  exact (writeFrames_spec (reached_inv hr) e2).fits

/-- A stream that says it has nothing writes nothing, and one that says it has something writes
something if there is room. -/
theorem C49_has_data_exact {h h' : Hist} (hr : Reached h) {conn conn' : SFc} {p : Prio} {rem split : Nat} {w : Wrote}
    (hs : h.step conn (.frames p rem split) = .ok (h', conn', .wrote w)) :
    (h.s.hasDataAt p = false → w.frames = []) ∧ (h.s.hasDataAt p = true → 82 ≤ rem → w.frames ≠ []) := by
  obtain ⟨w', e1, e2, _⟩ := step_frames hs
  cases e1
  have sp := writeFrames_spec (reached_inv hr) e2
  refine ⟨sp.hasNot, fun h1 h2 h3 => ?_⟩
  rw [sp.has h3 h2] at h1; cases h1

end Neqo.Send
