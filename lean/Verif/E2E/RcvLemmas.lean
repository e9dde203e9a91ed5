import Verif.E2E.Model
import Verif.RecvStream.Props

/-! # What one operation of the receiver changes -/
namespace Neqo.RecvS
open Neqo.Codec (Bytes)
open Neqo.Flow (RFc)

/-- The end of the stream was announced by a STREAM frame with FIN. -/
def State.finKnown : State → Bool
  | .sizeKnown _ _ | .dataRecvd _ _ | .dataRead _ _ => true
  | _ => false

/-- The error code of a reliable reset in progress. -/
def State.atErr : State → Option Nat
  | .sizeKnownAt _ _ e _ _ => some e
  | _ => none

theorem consumeData_kind {st st' : State} {ses ses' : RFc} {c : Nat} {fin : Bool}
    (h : st.consumeData ses c fin = .ok (st', ses')) : st'.finKnown = st.finKnown ∧ st'.atErr = st.atErr := by
  cases st with
  | dataRead a b => cases h; exact ⟨rfl, rfl⟩
  | resetRecvd a b => cases h; exact ⟨rfl, rfl⟩
  | _ =>
    simp only [State.consumeData, Except.bind_eq_ok, Except.pure_eq_ok] at h
    obtain ⟨_, _, h⟩ := h
    cases h
    exact ⟨rfl, rfl⟩

theorem deliver_kind {st st' : State} {fin : Bool} {off : Nat} {d : Bytes} (h : st.deliver fin off d = .ok st') :
    (st'.finKnown = true → st.finKnown = true ∨ fin = true) ∧ st'.atErr = st.atErr := by
  cases st with
  | recv fc buf =>
    simp only [State.deliver, Except.bind_eq_ok, Except.pure_eq_ok] at h
    obtain ⟨_, _, h⟩ := h
    split at h
    · rename_i hf
      split at h <;> cases h <;> exact ⟨fun _ => .inr hf, rfl⟩
    · cases h; exact ⟨nofun, rfl⟩
  | sizeKnown fc buf =>
    simp only [State.deliver, Except.bind_eq_ok, Except.pure_eq_ok] at h
    obtain ⟨_, _, h⟩ := h
    split at h <;> cases h <;> exact ⟨fun _ => .inl rfl, rfl⟩
  | sizeKnownAt fc buf e fs rel =>
    simp only [State.deliver] at h
    split at h
    · simp only [Except.bind_eq_ok, Except.pure_eq_ok] at h
      obtain ⟨_, _, h⟩ := h
      cases h; exact ⟨nofun, rfl⟩
    · cases h; exact ⟨nofun, rfl⟩
  | _ => cases h; exact ⟨.inl, rfl⟩

theorem finishReset_kind {st : State} {ses : RFc} {fs err a b : Nat} {r : State × RFc × Bool × List Ev}
    (h : st.finishReset ses fs err a b = .ok r) : r.1.finKnown = false ∧ r.1.atErr = none := by
  unfold State.finishReset at h
  split at h
  all_goals first
    | (cases h; exact ⟨rfl, rfl⟩)
    | (split at h
       · cases h
       · simp only [Except.bind_eq_ok, Except.pure_eq_ok] at h
         obtain ⟨_, _, h⟩ := h
         cases h; exact ⟨rfl, rfl⟩)

theorem completeIfDrained_kind {fc ses : RFc} {buf : Recv.Rx} {err fs rel : Nat} {r : State × RFc × Bool × List Ev}
    (h : (State.sizeKnownAt fc buf err fs rel).completeIfDrained ses = .ok r) :
    r.1.finKnown = false ∧ ∀ e, r.1.atErr = some e → e = err := by
  simp only [State.completeIfDrained] at h
  split at h
  · cases h; exact ⟨rfl, fun e he => by cases he; rfl⟩
  · obtain ⟨h1, h2⟩ := finishReset_kind h
    exact ⟨h1, fun e he => by rw [h2] at he; cases he⟩

theorem resetMatch_kind {st : State} {ses : RFc} {err fs rel : Nat} {r : State × RFc × Bool × List Ev}
    (h : st.resetMatch ses err fs rel = .ok r) :
    (r.1.finKnown = true → st.finKnown = true) ∧ ∀ e, r.1.atErr = some e → st.atErr = some e ∨ e = err := by
  cases st with
  | recv fc buf =>
    simp only [State.resetMatch, Except.bind_eq_ok] at h
    obtain ⟨_, _, h⟩ := h
    obtain ⟨h1, h2⟩ := completeIfDrained_kind h
    exact ⟨fun h => (by rw [h1] at h; cases h), fun e he => .inr (h2 e he)⟩
  | sizeKnown fc buf =>
    simp only [State.resetMatch, Except.bind_eq_ok] at h
    obtain ⟨_, _, h⟩ := h
    obtain ⟨h1, h2⟩ := completeIfDrained_kind h
    exact ⟨fun h => (by rw [h1] at h; cases h), fun e he => .inr (h2 e he)⟩
  | sizeKnownAt fc buf e0 fs0 st0 =>
    simp only [State.resetMatch] at h
    split at h
    · cases h
    · split at h
      · simp only [Except.bind_eq_ok] at h
        obtain ⟨_, _, h⟩ := h
        obtain ⟨h1, h2⟩ := completeIfDrained_kind h
        exact ⟨fun h => (by rw [h1] at h; cases h), fun e he => .inl (by rw [h2 e he]; rfl)⟩
      · cases h; exact ⟨id, fun e he => .inl he⟩
  | abortReading fc a b c d e =>
    simp only [State.resetMatch] at h
    obtain ⟨h1, h2⟩ := finishReset_kind h
    exact ⟨fun h => (by rw [h1] at h; cases h), fun e he => by rw [h2] at he; cases he⟩
  | waitForReset fc a b =>
    simp only [State.resetMatch] at h
    obtain ⟨h1, h2⟩ := finishReset_kind h
    exact ⟨fun h => (by rw [h1] at h; cases h), fun e he => by rw [h2] at he; cases he⟩
  | _ => cases h; exact ⟨id, fun e he => .inl he⟩

/-- A STREAM frame on a stream that has not ended. -/
theorem frame_shape {t t' : Tr} {ses ses' : RFc} {fin : Bool} {off : Nat} {d : Bytes} {o : Out}
    (hs : t.step ses (.frame fin off d) = .ok (t', ses', o)) (he : t.st.isEnded = false) :
    t'.hi = max t.hi (off + d.length) ∧ t'.frames = (off, d) :: t.frames ∧
    t'.ends = (if fin then (off + d.length) :: t.ends else t.ends) ∧ t'.advertised = t.advertised ∧
    (t'.st.finKnown = true → t.st.finKnown = true ∨ fin = true) ∧ t'.st.atErr = t.st.atErr := by
  simp only [Tr.step, Except.bind_eq_ok, Except.pure_eq_ok] at hs
  obtain ⟨⟨st', s', ev⟩, h1, h2⟩ := hs
  cases h2
  simp only [State.inboundFrame, Except.bind_eq_ok, Except.pure_eq_ok] at h1
  obtain ⟨⟨st1, ses1⟩, c1, st2, c2, c3⟩ := h1
  cases c3
  obtain ⟨a1, a2⟩ := consumeData_kind c1
  obtain ⟨b1, b2⟩ := deliver_kind c2
  refine ⟨?_, ?_, ?_, ?_, fun h => by rw [← a1]; exact b1 h, b2.trans a2⟩ <;>
    simp [Tr.note, Tr.noteFrame, he]

/-- A reset of a stream that has not ended. -/
theorem reset_shape {t t' : Tr} {ses ses' : RFc} {err fs rel : Nat} {o : Out}
    (hs : t.step ses (.reset err fs rel) = .ok (t', ses', o)) (he : t.st.isEnded = false) :
    t'.hi = max t.hi fs ∧ t'.frames = t.frames ∧ t'.ends = fs :: t.ends ∧ t'.advertised = t.advertised ∧
    (t'.st.finKnown = true → t.st.finKnown = true) ∧ ∀ e, t'.st.atErr = some e → t.st.atErr = some e ∨ e = err := by
  simp only [Tr.step, Except.bind_eq_ok, Except.pure_eq_ok] at hs
  obtain ⟨⟨st', s', a, b⟩, h1, h2⟩ := hs
  cases h2
  simp only [State.reset] at h1
  split at h1
  · cases h1
  simp only [Except.bind_eq_ok] at h1
  obtain ⟨⟨st1, ses1⟩, c1, c2⟩ := h1
  obtain ⟨a1, a2⟩ := consumeData_kind c1
  obtain ⟨b1, b2⟩ := resetMatch_kind c2
  refine ⟨?_, ?_, ?_, ?_, fun h => by rw [← a1]; exact b1 h, fun e h => by rw [← a2]; exact b2 e h⟩ <;>
    simp [Tr.note, he]

/-- Everything else. -/
theorem other_shape {t t' : Tr} {ses ses' : RFc} {op : Op} {o : Out}
    (hop : (∀ fin off d, op ≠ .frame fin off d) ∧ (∀ err fs rel, op ≠ .reset err fs rel))
    (hs : t.step ses op = .ok (t', ses', o)) :
    t'.hi = t.hi ∧ t'.frames = t.frames ∧ t'.ends = t.ends ∧
    (t'.st.finKnown = true → t.st.finKnown = true) ∧ ∀ e, t'.st.atErr = some e → t.st.atErr = some e := by
  cases op with
  | frame fin off d => exact absurd rfl (hop.1 _ _ _)
  | reset err fs rel => exact absurd rfl (hop.2 _ _ _)
  | read n =>
    simp only [Tr.step] at hs
    split at hs
    · rename_i st' ses1 out fin ev hrd
      cases hs
      refine ⟨rfl, rfl, rfl, ?_⟩
      simp only
      cases hst : t.st with
      | recv fc buf =>
        rw [hst] at hrd
        simp only [State.read, Except.bind_eq_ok, Except.pure_eq_ok] at hrd
        obtain ⟨_, _, _, _, h⟩ := hrd
        cases h; exact ⟨nofun, nofun⟩
      | sizeKnown fc buf =>
        rw [hst] at hrd
        simp only [State.read, Except.bind_eq_ok, Except.pure_eq_ok] at hrd
        obtain ⟨_, _, _, _, h⟩ := hrd
        cases h; exact ⟨fun _ => rfl, nofun⟩
      | dataRecvd fc buf => exact ⟨fun _ => rfl, by
          rw [hst] at hrd
          simp only [State.read, Except.bind_eq_ok] at hrd
          obtain ⟨_, _, _, _, _, _, h⟩ := hrd
          split at h <;> cases h <;> nofun⟩
      | sizeKnownAt fc buf e fs rel =>
        rw [hst] at hrd
        simp only [State.read, Except.bind_eq_ok, Except.pure_eq_ok] at hrd
        obtain ⟨_, _, _, _, r, h1, h2⟩ := hrd
        cases h2
        obtain ⟨g1, g2⟩ := completeIfDrained_kind h1
        exact ⟨fun h => (by rw [g1] at h; cases h), fun x hx => by rw [g2 x hx]; rfl⟩
      | _ => rw [hst] at hrd; cases hrd
    · cases hs; exact ⟨rfl, rfl, rfl, id, fun _ h => h⟩
    · cases hs
  | stopSending err =>
    simp only [Tr.step, Except.bind_eq_ok, Except.pure_eq_ok] at hs
    obtain ⟨⟨st', s', a, b⟩, h1, h2⟩ := hs
    cases h2
    refine ⟨rfl, rfl, rfl, ?_⟩
    simp only
    cases hst : t.st <;> rw [hst] at h1 <;> simp only [State.stopSending, Except.bind_eq_ok, Except.pure_eq_ok] at h1
    all_goals first
      | (obtain ⟨_, _, h⟩ := h1; cases h; exact ⟨fun _ => rfl, nofun⟩)
      | (obtain ⟨g1, g2⟩ := finishReset_kind h1
         exact ⟨fun h => (by rw [g1] at h; cases h), fun e he => (by rw [g2] at he; cases he)⟩)
      | (obtain ⟨_, _, h⟩ := h1; cases h; exact ⟨nofun, nofun⟩)
      | (cases h1; exact ⟨id, fun _ h => h⟩)
      | (cases h1; exact ⟨nofun, nofun⟩)
  | stopSendingAcked =>
    cases hs
    refine ⟨rfl, rfl, rfl, ?_⟩
    simp only [State.stopSendingAcked]
    cases hst : t.st with
    | abortReading fc a b c d e => simp only; split <;> exact ⟨nofun, nofun⟩
    | _ => exact ⟨id, fun _ h => h⟩
  | stopSendingLost =>
    cases hs
    refine ⟨rfl, rfl, rfl, ?_⟩
    simp only [State.stopSendingLost]
    cases hst : t.st <;> exact ⟨id, fun _ h => h⟩
  | write fits now rtt =>
    simp only [Tr.step, Except.bind_eq_ok, Except.pure_eq_ok] at hs
    obtain ⟨⟨st', f⟩, h1, h2⟩ := hs
    cases h2
    refine ⟨rfl, rfl, rfl, ?_⟩
    simp only
    cases hst : t.st with
    | recv fc buf =>
      rw [hst] at h1
      simp only [State.writeFrame, Except.bind_eq_ok, Except.pure_eq_ok] at h1
      obtain ⟨_, _, h⟩ := h1
      cases h; exact ⟨nofun, nofun⟩
    | abortReading fc a b c d e =>
      rw [hst] at h1
      simp only [State.writeFrame] at h1
      split at h1 <;> cases h1 <;> exact ⟨nofun, nofun⟩
    | _ => rw [hst] at h1; cases h1; exact ⟨id, fun _ h => h⟩
  | maxStreamDataLost l =>
    cases hs
    refine ⟨rfl, rfl, rfl, ?_⟩
    simp only [State.maxStreamDataLost]
    cases hst : t.st <;> exact ⟨id, fun _ h => h⟩
  | peerBlocked =>
    cases hs
    refine ⟨rfl, rfl, rfl, ?_⟩
    simp only [State.sendFlowcUpdate]
    cases hst : t.st <;> exact ⟨id, fun _ h => h⟩
  | setWindow w =>
    cases hs
    refine ⟨rfl, rfl, rfl, ?_⟩
    simp only [State.setStreamMaxData]
    cases hst : t.st <;> exact ⟨id, fun _ h => h⟩

/-! ## Histories put together -/

theorem run_snoc {c c1 c2 : Conn} {ops : List COp} {os : List Out} {op : COp} {o : Out}
    (h1 : c.run ops = .ok (c1, os)) (h2 : c1.step op = .ok (c2, o)) : c.run (ops ++ [op]) = .ok (c2, os ++ [o]) := by
  induction ops generalizing c os with
  | nil =>
    cases h1
    simp [Conn.run, h2, bind, Except.bind, pure, Except.pure]
  | cons a ops ih =>
    simp only [Conn.run, Except.bind_eq_ok, Except.pure_eq_ok] at h1
    obtain ⟨⟨ca, oa⟩, e1, ⟨cb, ob⟩, e2, e3⟩ := h1
    cases e3
    simp only [List.cons_append, Conn.run, e1, ih e2, bind, Except.bind, pure, Except.pure]

theorem sane_snoc {c c1 : Conn} {ops : List COp} {os : List Out} {op : COp} (hs : SaneRun c ops)
    (h1 : c.run ops = .ok (c1, os)) (h2 : Sane c1 op) : SaneRun c (ops ++ [op]) := by
  induction ops generalizing c os with
  | nil => cases h1; exact ⟨h2, fun _ _ _ => trivial⟩
  | cons a ops ih =>
    simp only [Conn.run, Except.bind_eq_ok, Except.pure_eq_ok] at h1
    obtain ⟨⟨ca, oa⟩, e1, ⟨cb, ob⟩, e2, e3⟩ := h1
    cases e3
    refine ⟨hs.1, fun x y hx => ?_⟩
    rw [e1] at hx
    cases hx
    exact ih (hs.2 _ _ e1) e2

theorem rcv_length {c c' : Conn} {op : COp} {o : Out} (hs : c.step op = .ok (c', o)) :
    c'.streams.length = c.streams.length + (match op with | .newStream _ => 1 | _ => 0) := by
  cases op with
  | newStream m => cases hs; simp
  | onStream j op =>
    simp only [Conn.step] at hs
    split at hs
    · cases hs; rfl
    · simp only [Except.bind_eq_ok, Except.pure_eq_ok] at hs
      obtain ⟨_, _, e2⟩ := hs
      cases e2; simp
  | write fits now rtt =>
    simp only [Conn.step, Except.bind_eq_ok, Except.pure_eq_ok] at hs
    obtain ⟨_, _, e2⟩ := hs
    cases e2; rfl
  | maxDataLost l => cases hs; rfl
  | peerBlocked => cases hs; rfl

theorem rcv_adv {c c' : Conn} {op : COp} {o : Out} (hs : c.step op = .ok (c', o)) :
    ∀ l ∈ c.advertised, l ∈ c'.advertised := by
  cases op with
  | newStream m => cases hs; exact fun _ h => h
  | onStream j op =>
    simp only [Conn.step] at hs
    split at hs
    · cases hs; exact fun _ h => h
    · simp only [Except.bind_eq_ok, Except.pure_eq_ok] at hs
      obtain ⟨_, _, e2⟩ := hs
      cases e2; exact fun _ h => h
  | write fits now rtt =>
    simp only [Conn.step, Except.bind_eq_ok, Except.pure_eq_ok] at hs
    obtain ⟨_, _, e2⟩ := hs
    cases e2
    intro l hl
    simp only
    split
    · exact List.mem_cons_of_mem _ hl
    · exact hl
  | maxDataLost l => cases hs; exact fun _ h => h
  | peerBlocked => cases hs; exact fun _ h => h

theorem mono_head {l : List Nat} (h : Mono l) {x y : Nat} (hx : l.head? = some x) (hy : y ∈ l) : y ≤ x := by
  cases l with
  | nil => cases hx
  | cons a l =>
    cases hx
    rcases List.mem_cons.mp hy with rfl | hy
    · exact Nat.le_refl _
    · exact (List.pairwise_cons.mp h).1 y hy

/-- Limits announced for a stream fit a variable-length integer. -/
theorem adv_le_step {t t' : Tr} {ses ses' : RFc} {op : Op} {o : Out} (hf : StrOk t) (hl : LimOk t) (hk : KeepsWindow t op)
    (hs : t.step ses op = .ok (t', ses', o)) (h : ∀ l ∈ t.advertised, l ≤ 2 ^ 62 - 1) :
    ∀ l ∈ t'.advertised, l ≤ 2 ^ 62 - 1 := by
  rcases write_adv hs with e | ⟨l, e⟩
  · rw [e]; exact h
  · rw [e]
    intro x hx
    rcases List.mem_cons.mp hx with rfl | hx
    · -- only a stream in `Recv` announces a limit
      obtain ⟨l1, -⟩ := limOk_step hf hl hk hs
      obtain ⟨s1, -⟩ := step_ok hf hs
      have hw : ∃ fits now rtt, op = .write fits now rtt := by
        rcases step_adv hs with hw | hw
        · exact hw
        · rw [hw] at e
          have := congrArg List.length e
          simp at this
      obtain ⟨fits, now, rtt, rfl⟩ := hw
      simp only [Tr.step, Except.bind_eq_ok, Except.pure_eq_ok] at hs
      obtain ⟨⟨st', f⟩, g1, g2⟩ := hs
      have hst' : t'.st = st' := by cases g2; rfl
      have hadv : (∀ l, f ≠ some (.maxStreamData l)) → t'.advertised = t.advertised := by
        intro hne
        cases g2
        split
        · rename_i hfe
          exact absurd hfe (hne _)
        · rfl
      cases hst : t.st with
      | recv fc buf =>
        rw [hst] at g1
        simp only [State.writeFrame, Except.bind_eq_ok, Except.pure_eq_ok] at g1
        obtain ⟨⟨fc1, o1⟩, k1, k2⟩ := g1
        cases k2
        have hcap := (l1.fc fc1 buf hst').cap
        have hs1 := s1.st
        rw [hst'] at hs1
        have := hs1.1.adv
        rw [e] at this
        cases this
        exact hcap
      | abortReading fc a b c d ee =>
        rw [hst] at g1
        simp only [State.writeFrame] at g1
        split at g1 <;> cases g1 <;> (have := congrArg List.length (hadv nofun); rw [e] at this; simp at this)
      | _ =>
        rw [hst] at g1
        cases g1
        have := congrArg List.length (hadv nofun)
        rw [e] at this; simp at this
    · exact h x hx

end Neqo.RecvS
