import Verif.SendStream.ConnProps

/-!
# Concrete histories that meet the hypotheses of the send-stream theorems
-/
namespace Neqo.Send
open Neqo.Codec (Bytes maxVarint)
open Neqo.Flow (SFc)

private def fc : SFc := { limit := 1000 }

/-- Eight bytes written and sent in two frames; the first is declared lost, the second acknowledged;
then the stream is closed. -/
private def lossy : List (SFc × Op) :=
  [(fc, .write [1, 2, 3, 4, 5] false), (fc, .frames 0 100 50), (fc, .write [6, 7, 8] false), (fc, .frames 0 100 50),
    (fc, .lost 0), (fc, .acked 1), (fc, .close)]

private theorem reached_of {ops : List (SFc × Op)} {h : Hist} (hv : ∀ p ∈ ops, p.2.Valid)
    (hr : (Hist.new 4 500 fc).run ops = .ok h) : Reached h := ⟨4, 500, fc, ops, by decide, by decide, hv, hr⟩

/-- C17, C18, C48: the history is reached; byte 2 is neither acknowledged nor in flight; the next
packet at either priority carries the first five bytes; the three others are acknowledged. -/
example : ∃ h, Reached h ∧ h.r.written = [1, 2, 3, 4, 5, 6, 7, 8] ∧ h.r.live = [1] ∧ h.r.acks = [1] ∧
    h.r.toks = [⟨0, 5, false⟩, ⟨5, 3, false⟩] ∧ h.r.goal = 8 ∧ h.s.bytesAcked = 0 ∧ h.s.bytesSent = 8 ∧
    h.s.bytesWritten = 8 ∧ h.s.hasDataAt h.s.prio = true ∧
    (∃ h' w, h.step fc (.frames h.s.prio 100 50) = .ok (h', fc, .wrote w) ∧
      w.frames = [.stream 0 [1, 2, 3, 4, 5] false false]) ∧
    (∃ h' w, h.step fc (.frames h.s.effPrio 100 50) = .ok (h', fc, .wrote w) ∧
      w.frames = [.stream 0 [1, 2, 3, 4, 5] false false]) := by
  have : ∃ h, (Hist.new 4 500 fc).run lossy = .ok h ∧ h.r.written = [1, 2, 3, 4, 5, 6, 7, 8] ∧ h.r.live = [1] ∧
    h.r.acks = [1] ∧
    h.r.toks = [⟨0, 5, false⟩, ⟨5, 3, false⟩] ∧ h.r.goal = 8 ∧ h.s.bytesAcked = 0 ∧ h.s.bytesSent = 8 ∧
    h.s.bytesWritten = 8 ∧ h.s.hasDataAt h.s.prio = true ∧
    (∃ h' w, h.step fc (.frames h.s.prio 100 50) = .ok (h', fc, .wrote w) ∧
      w.frames = [.stream 0 [1, 2, 3, 4, 5] false false]) ∧
    (∃ h' w, h.step fc (.frames h.s.effPrio 100 50) = .ok (h', fc, .wrote w) ∧
      w.frames = [.stream 0 [1, 2, 3, 4, 5] false false]) :=
    ⟨_, rfl, rfl, rfl, rfl, rfl, rfl, rfl, rfl, rfl, rfl, ⟨_, _, rfl, rfl⟩, ⟨_, _, rfl, rfl⟩⟩
  obtain ⟨h, h1, h2⟩ := this
  exact ⟨h, reached_of (by simp [lossy, Op.Valid]) h1, h2⟩

/-- C19, C20: after the retransmission, a frame with just the fin, and both acknowledged, the stream
is complete.  In between it reports its final size. -/
example : ∃ h h', (Hist.new 4 500 fc).run (lossy ++ [(fc, .frames 0 100 50), (fc, .frames 0 100 50)]) = .ok h ∧
    h.r.frames.getLast? = some (.stream 8 [] true false) ∧ h.s.finalSize = some 8 ∧ h.r.closed = true ∧
    h.run [(fc, .acked 2), (fc, .acked 3)] = .ok h' ∧ h'.s.events = [.writable, .complete] ∧ h'.s.isEnded = true :=
  ⟨_, _, rfl, rfl, rfl, rfl, rfl, rfl, rfl⟩

/-- C21: four bytes committed, two more written, then a reset.  Only the committed bytes are sent
(again); the stream ends once the reset and those bytes are acknowledged. -/
example : ∃ h h', (Hist.new 4 500 fc).run [(fc, .write [1, 2, 3, 4] false), (fc, .commit), (fc, .write [5, 6] false),
      (fc, .frames 0 100 50), (fc, .lost 0), (fc, .reset 7), (fc, .frames 0 100 50)] = .ok h ∧
    h.r.resetCalled = true ∧ h.r.committed = 4 ∧
    h.r.frames = [.stream 0 [1, 2, 3, 4, 5, 6] false false, .resetAt 7 6 4, .stream 0 [1, 2, 3, 4] false false] ∧
    h.s.isEnded = false ∧ h.run [(fc, .resetAcked), (fc, .acked 1)] = .ok h' ∧ h'.s.isEnded = true :=
  ⟨_, _, rfl, rfl, rfl, rfl, rfl, rfl, rfl⟩

/-- A plain reset. -/
example : ∃ h, (Hist.new 4 500 fc).run [(fc, .write [1, 2, 3, 4] false), (fc, .reset 7), (fc, .frames 0 100 50)] = .ok h ∧
    h.r.frames = [.reset 7 4] ∧ framesSize 4 h.r.frames = .ok 4 := ⟨_, rfl, rfl, rfl⟩

end Neqo.Send
