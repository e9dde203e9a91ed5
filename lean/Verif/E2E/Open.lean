import Verif.RecvStream.ConnInv

/-! # Receive windows are open or about to be opened -/
namespace Neqo.Flow

/-- Unless an update is waiting to be sent, the peer has at least three quarters of the window. -/
def Wide (s : RFc) : Prop :=
  s.framePending = false → s.maxActive - s.maxActive / 4 ≤ s.maxAllowed - s.retired ∨ s.maxAllowed = maxVarint

theorem wide_new (m : Nat) : Wide (RFc.new m) := fun _ => .inl (by simp [RFc.new])

theorem wide_addRetired {s s' : RFc} {n : Nat} (h : s.addRetired n = .ok s') : Wide s' := by
  unfold RFc.addRetired RFc.shouldSendUpdate at h
  split at h
  · simp only at h
    split at h
    · cases h
    · rename_i b hb
      split at hb
      · cases hb
      · cases hb
        cases h
        intro hf
        split at hf
        · cases hf
        · rename_i hn
          have hn' : ¬ (s.maxAllowed - (s.retired + n) < s.maxActive - s.maxActive / 4) := fun hc => hn (decide_eq_true hc)
          rw [if_neg hn]
          simp only
          exact .inl (by omega)
  · cases h

theorem wide_consume {s s' : RFc} {n : Nat} (hw : Wide s) (h : s.consume n = .ok s') : Wide s' := by
  unfold RFc.consume at h
  split at h
  · cases h
  · cases h; exact hw

theorem wide_setConsumed {s s' : RFc} {n k : Nat} (hw : Wide s) (h : s.setConsumed n = .ok (s', k)) : Wide s' := by
  unfold RFc.setConsumed at h
  split at h
  · cases h; exact hw
  · split at h
    · cases h
    · cases h; exact hw

theorem wide_lost {s : RFc} (hw : Wide s) (l : Nat) : Wide (s.frameLost l) := by
  unfold RFc.frameLost
  split
  · exact nofun
  · exact hw

theorem wide_blocked {s : RFc} (hw : Wide s) : Wide s.sendFlowcUpdate := by
  unfold RFc.sendFlowcUpdate
  split
  · exact nofun
  · exact hw

theorem wide_setMaxActive {s : RFc} (hw : Wide s) {w : Nat} (h : s.maxActive ≤ w) : Wide (s.setMaxActive w) := by
  intro hf
  simp only [RFc.setMaxActive, Bool.or_eq_false_iff, decide_eq_false_iff_not] at hf ⊢
  have : w = s.maxActive := by omega
  subst this
  exact hw hf.1

theorem wide_write {s s' : RFc} {fits : Bool} {now rtt mw : Nat} {o : Option Nat} (hok : FcOk s) (hw : Wide s)
    (h : s.write fits now rtt mw = .ok (s', o)) : Wide s' := by
  unfold RFc.write at h
  split at h
  · rename_i hp
    split at h
    · cases h
    · rename_i s1 hs1
      obtain ⟨m, rfl, hle⟩ := autoTune_ok hs1
      split at h
      · cases h
        intro _
        have := hok.ret; have := hok.con; have := hok.cap
        simp only [RFc.frameSent, RFc.nextLimit]
        omega
      · cases h
        intro hf
        simp only at hf
        rw [hp] at hf; cases hf
  · cases h; exact hw

/-- A packet with room announces a larger limit unless the window is wide. -/
theorem write_announces {s : RFc} (hok : FcOk s) (hw : Wide s)
    (hn : s.maxAllowed - s.retired < s.maxActive - s.maxActive / 4) (hm : s.maxAllowed ≠ maxVarint) (now rtt mw : Nat) :
    ∃ s' l, s.write true now rtt mw = .ok (s', some l) ∧ s.maxAllowed < l ∧ min (s.retired + s.maxActive) maxVarint ≤ l := by
  have hp : s.framePending = true := by
    cases hf : s.framePending with
    | true => rfl
    | false =>
      rcases hw hf with h | h
      · omega
      · exact absurd h hm
  obtain ⟨s1, h1⟩ := autoTune_succeeds hok now rtt mw
  obtain ⟨m, rfl, hle⟩ := autoTune_ok h1
  refine ⟨_, _, by simp only [RFc.write, hp, if_true, h1]; rfl, ?_⟩
  have := hok.cap
  simp only [RFc.nextLimit]
  omega

/-- So does one after the peer said that it is blocked, unless the window is open altogether. -/
theorem blocked_announces {s : RFc} (hok : FcOk s) (hn : s.maxAllowed < s.retired + s.maxActive) (hm : s.maxAllowed ≠ maxVarint)
    (now rtt mw : Nat) : ∃ s' l, s.sendFlowcUpdate.write true now rtt mw = .ok (s', some l) ∧ s.maxAllowed < l ∧ min (s.retired + s.maxActive) maxVarint ≤ l := by
  have e : s.sendFlowcUpdate = { s with framePending := true } := by
    unfold RFc.sendFlowcUpdate
    rw [if_pos hn]
  rw [e]
  have hok' : FcOk { s with framePending := true } := ⟨hok.ret, hok.con, hok.win, hok.cap⟩
  obtain ⟨s1, h1⟩ := autoTune_succeeds hok' now rtt mw
  obtain ⟨m, rfl, hle⟩ := autoTune_ok h1
  refine ⟨_, _, by simp only [RFc.write, if_true, h1]; rfl, ?_⟩
  have := hok.cap
  simp only [RFc.nextLimit]
  simp only at hle
  omega

/-- An announcement that was lost is made again. -/
theorem lost_announces {s : RFc} (hok : FcOk s) (now rtt mw : Nat) :
    ∃ s' l, (s.frameLost s.maxAllowed).write true now rtt mw = .ok (s', some l) ∧ s.maxAllowed ≤ l := by
  have e : s.frameLost s.maxAllowed = { s with framePending := true } := by
    unfold RFc.frameLost
    rw [if_pos rfl]
  rw [e]
  have hok' : FcOk { s with framePending := true } := ⟨hok.ret, hok.con, hok.win, hok.cap⟩
  obtain ⟨s1, h1⟩ := autoTune_succeeds hok' now rtt mw
  obtain ⟨m, rfl, hle⟩ := autoTune_ok h1
  refine ⟨_, _, by simp only [RFc.write, if_true, h1]; rfl, ?_⟩
  have := hok.cap; have := hok.win
  simp only [RFc.nextLimit]
  simp only at hle
  omega

end Neqo.Flow

namespace Neqo.RecvS
open Neqo.Codec (Bytes)
open Neqo.Flow (RFc Wide FcOk)

/-- The window of a stream that goes on. -/
def TWide (st : State) : Prop := ∀ fc buf, st = .recv fc buf → Wide fc

theorem retireData_wide {n : Nat} {fc ses fc' ses' : RFc} (h : retireData n fc ses = .ok (fc', ses')) :
    (Wide fc → Wide fc') ∧ (Wide ses → Wide ses') := by
  unfold retireData at h
  split at h
  · simp only [Except.bind_eq_ok, Except.pure_eq_ok] at h
    obtain ⟨f, h1, s, h2, h3⟩ := h
    cases h3
    exact ⟨fun _ => Flow.wide_addRetired h1, fun _ => Flow.wide_addRetired h2⟩
  · cases h; exact ⟨id, id⟩

theorem consumeCore_wide {fc ses fc' ses' : RFc} {a b fin : Bool} {n : Nat}
    (h : consumeCore fc ses a b n fin = .ok (fc', ses')) : (Wide fc → Wide fc') ∧ (Wide ses → Wide ses') := by
  unfold consumeCore at h
  split at h
  · simp only [Except.bind_eq_ok] at h
    obtain ⟨⟨f1, k⟩, h1, s1, h2, h3⟩ := h
    simp only at h2 h3
    split at h3
    · obtain ⟨q1, q2⟩ := retireData_wide h3
      exact ⟨fun w => q1 (Flow.wide_setConsumed w h1), fun w => q2 (Flow.wide_consume w h2)⟩
    · cases h3
      exact ⟨fun w => Flow.wide_setConsumed w h1, fun w => Flow.wide_consume w h2⟩
  · cases h

theorem consumeData_wide {st st' : State} {ses ses' : RFc} {n : Nat} {fin : Bool}
    (h : st.consumeData ses n fin = .ok (st', ses')) : (TWide st → TWide st') ∧ (Wide ses → Wide ses') := by
  cases st with
  | dataRead a b => cases h; exact ⟨id, id⟩
  | resetRecvd a b => cases h; exact ⟨id, id⟩
  | recv fc buf =>
    simp only [State.consumeData, Except.bind_eq_ok, Except.pure_eq_ok] at h
    obtain ⟨⟨f, s⟩, h1, h2⟩ := h
    cases h2
    obtain ⟨q1, q2⟩ := consumeCore_wide h1
    refine ⟨fun w => ?_, q2⟩
    rintro _ _ e
    cases e
    exact q1 (w fc buf rfl)
  | _ =>
    simp only [State.consumeData, Except.bind_eq_ok, Except.pure_eq_ok] at h
    obtain ⟨⟨f, s⟩, h1, h2⟩ := h
    cases h2
    exact ⟨fun _ => nofun, (consumeCore_wide h1).2⟩

theorem deliver_wide {st st' : State} {fin : Bool} {off : Nat} {d : Bytes} (h : st.deliver fin off d = .ok st')
    (hw : TWide st) : TWide st' := by
  cases st with
  | recv fc buf =>
    simp only [State.deliver, Except.bind_eq_ok] at h
    obtain ⟨_, _, h⟩ := h
    split at h
    · split at h <;> cases h <;> exact nofun
    · cases h
      rintro _ _ e
      cases e
      exact hw fc buf rfl
  | sizeKnown fc buf =>
    simp only [State.deliver, Except.bind_eq_ok] at h
    obtain ⟨_, _, h⟩ := h
    split at h <;> cases h <;> exact nofun
  | sizeKnownAt fc buf e fs rel =>
    simp only [State.deliver] at h
    split at h
    · simp only [Except.bind_eq_ok] at h
      obtain ⟨_, _, h⟩ := h
      cases h; exact nofun
    · cases h; exact nofun
  | _ => cases h; exact nofun

theorem finishReset_wide {st : State} {ses : RFc} {a b c d : Nat} {r : State × RFc × Bool × List Ev}
    (h : st.finishReset ses a b c d = .ok r) : TWide r.1 ∧ (Wide ses → Wide r.2.1) := by
  unfold State.finishReset at h
  split at h
  all_goals first
    | (cases h; exact ⟨nofun, id⟩)
    | (split at h
       · cases h
       · simp only [Except.bind_eq_ok, Except.pure_eq_ok] at h
         obtain ⟨⟨f, s⟩, h1, h2⟩ := h
         cases h2
         exact ⟨nofun, (retireData_wide h1).2⟩)

theorem completeIfDrained_wide {fc ses : RFc} {buf : Recv.Rx} {err fs rel : Nat} {r : State × RFc × Bool × List Ev}
    (h : (State.sizeKnownAt fc buf err fs rel).completeIfDrained ses = .ok r) : TWide r.1 ∧ (Wide ses → Wide r.2.1) := by
  simp only [State.completeIfDrained] at h
  split at h
  · cases h; exact ⟨nofun, id⟩
  · exact finishReset_wide h

theorem resetMatch_wide {st : State} {ses : RFc} {err fs rel : Nat} {r : State × RFc × Bool × List Ev}
    (h : st.resetMatch ses err fs rel = .ok r) : TWide r.1 ∧ (Wide ses → Wide r.2.1) := by
  cases st with
  | recv fc buf =>
    simp only [State.resetMatch, Except.bind_eq_ok] at h
    obtain ⟨⟨f, s⟩, h1, h2⟩ := h
    obtain ⟨q1, q2⟩ := completeIfDrained_wide h2
    exact ⟨q1, fun w => q2 ((retireData_wide h1).2 w)⟩
  | sizeKnown fc buf =>
    simp only [State.resetMatch, Except.bind_eq_ok] at h
    obtain ⟨⟨f, s⟩, h1, h2⟩ := h
    obtain ⟨q1, q2⟩ := completeIfDrained_wide h2
    exact ⟨q1, fun w => q2 ((retireData_wide h1).2 w)⟩
  | sizeKnownAt fc buf e f s =>
    simp only [State.resetMatch] at h
    split at h
    · cases h
    · split at h
      · simp only [Except.bind_eq_ok] at h
        obtain ⟨⟨f, s⟩, h1, h2⟩ := h
        obtain ⟨q1, q2⟩ := completeIfDrained_wide h2
        exact ⟨q1, fun w => q2 ((retireData_wide h1).2 w)⟩
      · cases h; exact ⟨nofun, id⟩
  | abortReading fc a b e x y => simp only [State.resetMatch] at h; exact finishReset_wide h
  | waitForReset fc x y => simp only [State.resetMatch] at h; exact finishReset_wide h
  | dataRecvd fc buf => cases h; exact ⟨nofun, id⟩
  | dataRead a b => cases h; exact ⟨nofun, id⟩
  | resetRecvd a b => cases h; exact ⟨nofun, id⟩

theorem read_wide {st st' : State} {ses ses' : RFc} {n : Nat} {b : Bytes} {fin : Bool} {ev : List Ev}
    (h : st.read ses n = .ok (st', ses', b, fin, ev)) : (TWide st → TWide st') ∧ (Wide ses → Wide ses') := by
  cases st with
  | recv fc buf =>
    simp only [State.read, Except.bind_eq_ok, Except.pure_eq_ok] at h
    obtain ⟨⟨b1, out⟩, _, ⟨f, s⟩, h1, h2⟩ := h
    cases h2
    obtain ⟨q1, q2⟩ := retireData_wide h1
    refine ⟨fun w => ?_, q2⟩
    rintro _ _ e
    cases e
    exact q1 (w fc buf rfl)
  | sizeKnown fc buf =>
    simp only [State.read, Except.bind_eq_ok, Except.pure_eq_ok] at h
    obtain ⟨⟨b1, out⟩, _, ⟨f, s⟩, h1, h2⟩ := h
    cases h2
    exact ⟨fun _ => nofun, (retireData_wide h1).2⟩
  | dataRecvd fc buf =>
    simp only [State.read, Except.bind_eq_ok] at h
    obtain ⟨⟨b1, out⟩, _, ⟨f, s⟩, h1, l, _, h2⟩ := h
    split at h2 <;> cases h2 <;> exact ⟨fun _ => nofun, (retireData_wide h1).2⟩
  | sizeKnownAt fc buf e fs rel =>
    simp only [State.read, Except.bind_eq_ok, Except.pure_eq_ok] at h
    obtain ⟨⟨b1, out⟩, _, ⟨f, s⟩, h1, ⟨a, b, c, d⟩, h2, h3⟩ := h
    cases h3
    obtain ⟨q1, q2⟩ := completeIfDrained_wide h2
    exact ⟨fun _ => q1, fun w => q2 ((retireData_wide h1).2 w)⟩
  | _ => cases h

theorem stopSending_wide {st : State} {ses : RFc} {err : Nat} {r : State × RFc × Bool × List Ev}
    (h : st.stopSending ses err = .ok r) : (TWide st → TWide r.1) ∧ (Wide ses → Wide r.2.1) := by
  cases st with
  | recv fc buf =>
    simp only [State.stopSending, Except.bind_eq_ok, Except.pure_eq_ok] at h
    obtain ⟨⟨f, s⟩, h1, h2⟩ := h
    cases h2
    exact ⟨fun _ => nofun, (retireData_wide h1).2⟩
  | sizeKnown fc buf =>
    simp only [State.stopSending, Except.bind_eq_ok, Except.pure_eq_ok] at h
    obtain ⟨⟨f, s⟩, h1, h2⟩ := h
    cases h2
    exact ⟨fun _ => nofun, (retireData_wide h1).2⟩
  | dataRecvd fc buf =>
    simp only [State.stopSending, Except.bind_eq_ok, Except.pure_eq_ok] at h
    obtain ⟨⟨f, s⟩, h1, h2⟩ := h
    cases h2
    exact ⟨fun _ => nofun, (retireData_wide h1).2⟩
  | sizeKnownAt fc buf e fs rel =>
    simp only [State.stopSending] at h
    obtain ⟨q1, q2⟩ := finishReset_wide h
    exact ⟨fun _ => q1, q2⟩
  | _ => cases h; exact ⟨id, id⟩

theorem step_wide {t t' : Tr} {ses ses' : RFc} {op : Op} {o : Out} (hl : LimOk t) (hk : KeepsWindow t op)
    (hs : t.step ses op = .ok (t', ses', o)) : (TWide t.st → TWide t'.st) ∧ (Wide ses → Wide ses') := by
  cases op with
  | frame fin off d =>
    simp only [Tr.step, Except.bind_eq_ok, Except.pure_eq_ok] at hs
    obtain ⟨⟨st', s', ev⟩, h1, h2⟩ := hs
    cases h2
    simp only [State.inboundFrame, Except.bind_eq_ok, Except.pure_eq_ok] at h1
    obtain ⟨⟨sa, sb⟩, h1, sc, h2, h3⟩ := h1
    cases h3
    obtain ⟨q1, q2⟩ := consumeData_wide h1
    exact ⟨fun w => deliver_wide h2 (q1 w), q2⟩
  | reset err fs rel =>
    simp only [Tr.step, Except.bind_eq_ok, Except.pure_eq_ok] at hs
    obtain ⟨⟨st', s', a, b⟩, h1, h2⟩ := hs
    cases h2
    simp only [State.reset] at h1
    split at h1
    · cases h1
    · simp only [Except.bind_eq_ok] at h1
      obtain ⟨⟨sa, sb⟩, h1, h2⟩ := h1
      obtain ⟨q1, q2⟩ := consumeData_wide h1
      obtain ⟨q3, q4⟩ := resetMatch_wide h2
      exact ⟨fun _ => q3, fun w => q4 (q2 w)⟩
  | read n =>
    simp only [Tr.step] at hs
    split at hs
    · rename_i h1
      cases hs
      exact read_wide h1
    · cases hs; exact ⟨id, id⟩
    · cases hs
  | stopSending err =>
    simp only [Tr.step, Except.bind_eq_ok, Except.pure_eq_ok] at hs
    obtain ⟨⟨st', s', a, b⟩, h1, h2⟩ := hs
    cases h2
    exact stopSending_wide h1
  | stopSendingAcked =>
    cases hs
    refine ⟨fun w => ?_, id⟩
    simp only
    cases hst : t.st with
    | abortReading a b c d e f => simp only [State.stopSendingAcked]; split <;> exact nofun
    | recv a b => rw [hst] at w; exact w
    | _ => exact nofun
  | stopSendingLost =>
    cases hs
    refine ⟨fun w => ?_, id⟩
    simp only
    cases hst : t.st with
    | recv a b => rw [hst] at w; exact w
    | _ => exact nofun
  | write fits now rtt =>
    simp only [Tr.step, Except.bind_eq_ok, Except.pure_eq_ok] at hs
    obtain ⟨⟨st', f⟩, h1, h2⟩ := hs
    cases h2
    refine ⟨fun w => ?_, id⟩
    simp only
    cases hst : t.st with
    | recv fc buf =>
      rw [hst] at h1
      simp only [State.writeFrame, Except.bind_eq_ok, Except.pure_eq_ok] at h1
      obtain ⟨⟨fc', o'⟩, h3, h4⟩ := h1
      cases h4
      rintro _ _ e
      cases e
      exact Flow.wide_write (hl.fc fc buf hst) (w fc buf hst) h3
    | abortReading a b c d e f =>
      rw [hst] at h1
      simp only [State.writeFrame] at h1
      split at h1 <;> cases h1 <;> exact nofun
    | _ => rw [hst] at h1; cases h1; exact nofun
  | maxStreamDataLost l =>
    cases hs
    refine ⟨fun w => ?_, id⟩
    simp only
    cases hst : t.st with
    | recv fc buf => rintro _ _ e; cases e; exact Flow.wide_lost (w fc buf hst) l
    | _ => exact nofun
  | peerBlocked =>
    cases hs
    refine ⟨fun w => ?_, id⟩
    simp only
    cases hst : t.st with
    | recv fc buf => rintro _ _ e; cases e; exact Flow.wide_blocked (w fc buf hst)
    | _ => exact nofun
  | setWindow x =>
    cases hs
    refine ⟨fun w => ?_, id⟩
    simp only
    cases hst : t.st with
    | recv fc buf => rintro _ _ e; cases e; exact Flow.wide_setMaxActive (w fc buf hst) (hk x fc buf rfl hst)
    | _ => exact nofun

/-- All windows of a connection. -/
structure CWide (c : Conn) : Prop where
  ses : Wide c.ses
  str : ∀ (k : Nat) t, c.streams[k]? = some t → TWide t.st

theorem cwide_new (m : Nat) : CWide (Conn.new m) := ⟨Flow.wide_new m, by simp [Conn.new]⟩

theorem cwide_step {c c' : Conn} {op : COp} {o : Out} (h : CWide c) (hsok : SOk c) (hsane : Sane c op)
    (hs : c.step op = .ok (c', o)) : CWide c' := by
  cases op with
  | newStream m =>
    cases hs
    refine ⟨h.ses, fun k t ht => ?_⟩
    simp only [List.getElem?_append] at ht
    split at ht
    · exact h.str k t ht
    · cases hx : k - c.streams.length with
      | zero =>
        rw [hx] at ht; cases ht
        rintro _ _ e
        cases e
        exact Flow.wide_new m
      | succ y => rw [hx] at ht; simp at ht
  | onStream i op =>
    simp only [Conn.step] at hs
    split at hs
    · cases hs; exact h
    · rename_i t ht
      simp only [Except.bind_eq_ok, Except.pure_eq_ok] at hs
      obtain ⟨⟨t', ses', o'⟩, h1, h2⟩ := hs
      cases h2
      have hk : KeepsWindow t op := by
        rintro w fc buf rfl hst
        exact hsane t fc buf ht hst
      obtain ⟨q1, q2⟩ := step_wide (hsok.lim t (List.mem_of_getElem? ht)) hk h1
      refine ⟨q2 h.ses, fun k t'' hk' => ?_⟩
      by_cases hik : i = k
      · subst hik
        simp only [List.getElem?_set_self (List.getElem?_eq_some_iff.mp ht).1, Option.some.injEq] at hk'
        subst hk'
        exact q1 (h.str i t ht)
      · simp only [List.getElem?_set_ne hik] at hk'
        exact h.str k t'' hk'
  | write fits now rtt =>
    simp only [Conn.step, Except.bind_eq_ok, Except.pure_eq_ok] at hs
    obtain ⟨⟨ses', o'⟩, h1, h2⟩ := hs
    cases h2
    exact ⟨Flow.wide_write hsok.ses h.ses h1, h.str⟩
  | maxDataLost l => cases hs; exact ⟨Flow.wide_lost h.ses l, h.str⟩
  | peerBlocked => cases hs; exact ⟨Flow.wide_blocked h.ses, h.str⟩

theorem cwide_run {c c' : Conn} {ops : List COp} {os : List Out} (h : CWide c) (hsok : SOk c) (hs : SaneRun c ops)
    (hr : c.run ops = .ok (c', os)) : CWide c' := by
  induction ops generalizing c os with
  | nil => cases hr; exact h
  | cons op ops ih =>
    simp only [Conn.run, Except.bind_eq_ok, Except.pure_eq_ok] at hr
    obtain ⟨⟨c1, o⟩, h1, ⟨c2, os2⟩, h2, hr⟩ := hr
    cases hr
    exact ih (cwide_step h hsok hs.1 h1) (sok_step hsok hs.1 h1) (hs.2 _ _ h1) h2

end Neqo.RecvS
