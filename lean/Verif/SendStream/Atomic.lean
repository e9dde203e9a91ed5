import Verif.SendStream.ConnProps

/-!
# C125: sending all or nothing

`stream_send_atomic` (connection/mod.rs:3910-3932) over `Stream.sendInternal`. `CReached`, `h.r.written` and
`avail` are as for C13.
-/
namespace Neqo.Send
open Neqo.Codec (Bytes maxVarint)
open Neqo.Flow (SFc)

/-! ## The specification -/

/-- The flow control of a stream that can be written to. -/
def State.credit : State → Option SFc
  | .ready fc => some fc
  | .send fc _ _ => some fc
  | _ => none

/-- From `fc` to `fc'`, it is made known that the limit blocks: a frame that says so is to be sent now, unless
it was already made known for this limit. -/
def Told (fc fc' : SFc) : Prop :=
  fc'.limit = fc.limit ∧ (fc'.blockedNeeded = some fc.limit ∨ ∃ b, fc.blockedAt = some b ∧ fc.limit ≤ b)

/-! ## Lemmas -/

theorem told_blocked (fc : SFc) : Told fc fc.blocked := by
  unfold Told SFc.blocked SFc.blockedNeeded
  cases h : fc.blockedAt with
  | none => simp [Option.filter]
  | some b =>
    dsimp only
    split
    · rename_i hb
      exact ⟨rfl, .inr ⟨b, rfl, hb⟩⟩
    · simp [Option.filter]

theorem toSend_credit {s : Stream} : s.toSend.state.credit = s.state.credit := by
  unfold Stream.toSend
  cases h : s.state <;> simp [State.credit, h]

theorem toSend_avail {s : Stream} {conn : SFc} : s.toSend.avail conn = s.avail conn := by
  unfold Stream.toSend
  cases hx : s.state with
  | ready fc =>
    unfold Stream.avail
    simp only [hx, Tx.avail, List.length_nil, Nat.zero_le, if_true, Nat.sub_zero]
  | _ => rfl

theorem write_ok {h h' : Hist} {conn conn' : SFc} {data : Bytes} {atomic : Bool} {n : Nat}
    (hs : h.step conn (.write data atomic) = .ok (h', conn', .sent (.wrote n))) :
    h.s.sendInternal conn data atomic = .ok (h'.s, conn', .wrote n) ∧ h'.r.written = h.r.written ++ data.take n := by
  simp only [Hist.step, Except.bind_eq_ok] at hs
  obtain ⟨⟨s', c', res⟩, e1, e2⟩ := hs
  cases res with
  | wrote m => cases e2; exact ⟨e1, rfl⟩
  | err e => cases e2

theorem sendInternal_nonempty {s s' : Stream} {conn conn' : SFc} {data : Bytes} {atomic : Bool} {n : Nat}
    (h : s.sendInternal conn data atomic = .ok (s', conn', .wrote n)) : data ≠ [] := by
  intro h0
  unfold Stream.sendInternal at h
  rw [if_pos h0] at h
  cases h

/-! ## C125 -/

/-- An atomic write is accepted in full, if the stream's limit, the connection's limit and the buffer allow that
much, or else not at all; what it does not accept uses up no credit of the connection. -/
theorem C125_all_or_nothing {c : Conn} (hr : CReached c) {h h' : Hist} (hh : h ∈ c.streams) {data : Bytes} {fc' : SFc}
    {n a : Nat} (hs : h.step c.fc (.write data true) = .ok (h', fc', .sent (.wrote n))) (ha : h.s.avail c.fc = .ok a) :
    (data.length ≤ a → n = data.length ∧ h'.r.written = h.r.written ++ data ∧ fc'.used = c.fc.used + data.length) ∧
    (a < data.length → n = 0 ∧ h'.r.written = h.r.written ∧ fc'.used = c.fc.used) := by
  have hn := C13_accepts_exactly hr hh hs ha
  obtain ⟨e1, e2⟩ := write_ok hs
  obtain ⟨s', conn', res, g1, -, g2, -⟩ := sendInternal_ok ((creached_inv hr).each h hh) c.fc data true
  rw [e1] at g1
  cases g1
  obtain ⟨-, -, g3, -⟩ := g2 n rfl
  constructor
  · intro hl
    rw [if_neg (by omega), Nat.min_eq_right hl] at hn
    subst hn
    exact ⟨rfl, by rw [e2, List.take_length], g3⟩
  · intro hl
    rw [if_pos ⟨rfl, hl⟩] at hn
    subst hn
    exact ⟨rfl, by rw [e2, List.take_zero, List.append_nil], g3⟩

/-- `stream_send_atomic` never sees a number that is neither zero nor the length, which a debug build would
panic on, and so what it returns (whether the number is the length) says whether the data was accepted. -/
theorem C125_result {c : Conn} (hr : CReached c) {h h' : Hist} (hh : h ∈ c.streams) {data : Bytes} {fc' : SFc} {n : Nat}
    (hs : h.step c.fc (.write data true) = .ok (h', fc', .sent (.wrote n))) :
    (n = 0 ∨ n = data.length) ∧ (n = data.length ↔ h'.r.written = h.r.written ++ data) := by
  obtain ⟨a, ha, -⟩ := avail_ok ((creached_inv hr).each h hh) c.fc
  obtain ⟨h1, h2⟩ := C125_all_or_nothing hr hh hs ha
  have hne := List.length_pos_iff.mpr (sendInternal_nonempty (write_ok hs).1)
  by_cases hl : data.length ≤ a
  · obtain ⟨g1, g2, -⟩ := h1 hl
    exact ⟨.inr g1, fun _ => g2, fun _ => g1⟩
  · obtain ⟨g1, g2, -⟩ := h2 (by omega)
    refine ⟨.inl g1, fun h => by omega, fun h => ?_⟩
    rw [g2] at h
    have := congrArg List.length h
    rw [List.length_append] at this
    omega

/-- If an atomic write does not fit although something would, the peer is told of each limit that is in the way.

What is missing: if nothing at all fits, it is not told (`C125_silent`). -/
theorem C125_blocked_partial {c : Conn} {h h' : Hist} {data : Bytes} {fc' : SFc} {a : Nat}
    (hs : h.step c.fc (.write data true) = .ok (h', fc', .sent (.wrote 0))) (ha : h.s.avail c.fc = .ok a) (h0 : 0 < a)
    (hl : a < data.length) :
    (c.fc.available < data.length → Told c.fc fc') ∧
    ∃ f f', h.s.state.credit = some f ∧ h'.s.state.credit = some f' ∧ (f.available < data.length → Told f f') := by
  obtain ⟨e1, -⟩ := write_ok hs
  have hne := sendInternal_nonempty e1
  rw [← toSend_avail] at ha
  rw [← toSend_credit]
  unfold Stream.sendInternal at e1
  rw [if_neg hne] at e1
  dsimp only at e1
  split at e1
  · rename_i f tx cm hst
    rw [ha] at e1
    dsimp only at e1
    rw [if_neg (by omega), if_pos hl, if_pos rfl] at e1
    unfold Stream.blockedIfNeeded at e1
    rw [hst] at e1
    dsimp only at e1
    injection e1 with e1
    injection e1 with e2 e3
    injection e3 with e3 e4
    refine ⟨?_, f, blockedIf f data.length, by rw [hst]; rfl, by rw [← e2]; rfl, ?_⟩
    · intro hc
      rw [← e3]
      unfold blockedIf
      rw [if_pos (by omega)]
      exact told_blocked _
    · intro hc
      unfold blockedIf
      rw [if_pos (by omega)]
      exact told_blocked _
  · simp at e1

/-- A stream that starts with no credit: an atomic write is not accepted, and no frame is sent that tells the
peer so, neither for the stream nor for the connection. -/
theorem C125_silent : ∃ c h h' fc' h'' fc'' w, CReached c ∧ h ∈ c.streams ∧ h.s.avail c.fc = .ok 0 ∧
    h.step c.fc (.write [1] true) = .ok (h', fc', .sent (.wrote 0)) ∧ fc'.blockedNeeded = none ∧
    h'.step fc' (.frames h'.s.prio 1000 1000) = .ok (h'', fc'', .wrote w) ∧ w.frames = [] := by
  have hrun : ∃ c, (Conn.new 100).run [.opens 0 0] = .ok c ∧ ∃ h, c.streams = [h] ∧ ∃ h' fc' h'' fc'' w, h.s.avail c.fc = .ok 0 ∧
      h.step c.fc (.write [1] true) = .ok (h', fc', .sent (.wrote 0)) ∧ fc'.blockedNeeded = none ∧
      h'.step fc' (.frames h'.s.prio 1000 1000) = .ok (h'', fc'', .wrote w) ∧ w.frames = [] :=
    ⟨_, rfl, _, rfl, _, _, _, _, _, rfl, rfl, rfl, rfl, rfl⟩
  obtain ⟨c, e1, h, e2, h', fc', h'', fc'', w, e3⟩ := hrun
  exact ⟨c, h, h', fc', h'', fc'', w, ⟨100, _, by simp [COp.Valid, Op.Valid, maxVarint], e1⟩, by rw [e2]; exact .head _, e3⟩

/-- A stream with just enough credit, when the connection has too little: the peer is told that the limit of the
stream blocks, which it does not. -/
theorem C125_spurious : ∃ c h h' fc' f h'' fc'' w, CReached c ∧ h ∈ c.streams ∧
    h.step c.fc (.write [1, 2, 3] true) = .ok (h', fc', .sent (.wrote 0)) ∧ h'.s.state.credit = some f ∧ f.available = 3 ∧
    h'.step fc' (.frames h'.s.prio 1000 1000) = .ok (h'', fc'', .wrote w) ∧ w.frames = [.blocked 3] := by
  have hrun : ∃ c, (Conn.new 2).run [.opens 0 3] = .ok c ∧ ∃ h, c.streams = [h] ∧ ∃ h' fc' f h'' fc'' w,
      h.step c.fc (.write [1, 2, 3] true) = .ok (h', fc', .sent (.wrote 0)) ∧ h'.s.state.credit = some f ∧ f.available = 3 ∧
      h'.step fc' (.frames h'.s.prio 1000 1000) = .ok (h'', fc'', .wrote w) ∧ w.frames = [.blocked 3] :=
    ⟨_, rfl, _, rfl, _, _, _, _, _, _, rfl, rfl, rfl, rfl, rfl⟩
  obtain ⟨c, e1, h, e2, h', fc', f, h'', fc'', w, e3⟩ := hrun
  exact ⟨c, h, h', fc', f, h'', fc'', w, ⟨2, _, by simp [COp.Valid, Op.Valid, maxVarint], e1⟩, by rw [e2]; exact .head _, e3⟩

/-- Five bytes of credit: three are accepted as a whole, three more are not, and then the connection is known to
be blocked. -/
example : ∃ c, (Conn.new 5).run [.opens 0 1000] = .ok c ∧ ∃ h, c.streams = [h] ∧ ∃ h1 f1 h2 f2,
    h.step c.fc (.write [1, 2, 3] true) = .ok (h1, f1, .sent (.wrote 3)) ∧
    h1.step f1 (.write [4, 5, 6] true) = .ok (h2, f2, .sent (.wrote 0)) ∧ h2.r.written = [1, 2, 3] ∧
    f2.blockedNeeded = some 5 :=
  ⟨_, rfl, _, rfl, _, _, _, _, rfl, rfl, rfl, rfl⟩

end Neqo.Send
