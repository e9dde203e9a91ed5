import Verif.H3.ServerData

/-! # C106: a server passes on the data of a request as they arrive -/
namespace Neqo.H3
open Neqo.Codec
open Spec (Ev MEnd Phase message put mains promises got promised read also cut http3 wholeMessage conveyed
  Understood learned arrived)

variable {D H : Type}

/-! ## Lengths -/

theorem receiveLoop_avail (F : FrameDecoder T) : ∀ (fuel : Nat) (r : Reader) (s : Src) r' s' o b,
    r.receiveLoop F fuel s = .ok (r', s', o, b) → s'.avail.length ≤ s.avail.length := by
  intro fuel
  induction fuel with
  | zero => intro r s r' s' o b h; cases h
  | succ fuel ih =>
    intro r s r' s' o b h
    rw [receiveLoop_succ] at h
    have hd : (s.avail.drop (min r.minRemaining maxReadSize)).length ≤ s.avail.length := by
      rw [List.length_drop]; omega
    generalize hx : (if s.avail.take (min r.minRemaining maxReadSize) = [] then pure (r, none)
        else r.consume F (s.avail.take (min r.minRemaining maxReadSize)) :
          Except Err (Reader × Option T)) = x at h
    cases x with
    | error e => cases h
    | ok y =>
      obtain ⟨r1, o1⟩ := y
      cases o1 with
      | some f => cases h; exact hd
      | none =>
        simp only at h
        split at h
        · split at h
          · cases h
          · cases h; exact hd
        · split at h
          · cases h; exact hd
          · exact Nat.le_trans (ih _ _ _ _ _ _ h) hd

theorem decode_same (C : Ctx D H) (E : Env D) (m : Rm D H) (b : Bytes) :
    (m.decode C E b).1.src = m.src ∧ (m.decode C E b).1.st = m.st ∧ (m.decode C E b).1.out = m.out ∧
    (m.decode C E b).1.blocked = m.blocked := by
  unfold Rm.decode
  split
  · split <;> exact ⟨rfl, rfl, rfl, rfl⟩
  · split
    · exact ⟨rfl, rfl, rfl, rfl⟩
    · split <;> exact ⟨rfl, rfl, rfl, rfl⟩

theorem setClosePending_src (m : Rm D H) (post : Bool) : (m.setClosePending post).1.src = m.src := by
  unfold Rm.setClosePending
  split
  · rfl
  · rfl
  · cases post <;> rfl
  · cases post <;> rfl
  · rfl

theorem handlePromise_same (C : Ctx D H) (E : Env D) (m : Rm D H) (id : Nat) (b : Bytes) :
    (m.handlePromise C E id b).1.src = m.src ∧ (m.handlePromise C E id b).1.st = m.st := by
  unfold Rm.handlePromise
  split
  · exact ⟨rfl, rfl⟩
  · split
    · exact ⟨rfl, rfl⟩
    · have hd := decode_same C E m b
      cases hx : m.decode C E b with
      | mk m1 o =>
        rw [hx] at hd
        cases o with
        | error e => exact ⟨hd.1, hd.2.1⟩
        | ok o =>
          cases o with
          | none => exact ⟨hd.1, hd.2.1⟩
          | some d =>
            simp only
            cases E.accept id d with
            | error e => exact ⟨hd.1, hd.2.1⟩
            | ok u => exact ⟨hd.1, hd.2.1⟩

theorem handleFrame_src (C : Ctx D H) (E : Env D) (m : Rm D H) (f : HFrame) (fin : Bool) :
    (m.handleFrame C E f fin).1.src = m.src := by
  unfold Rm.handleFrame
  split
  · unfold Rm.handleHeaders
    split
    · split <;> rfl
    all_goals rfl
  · unfold Rm.handleData
    split
    · rfl
    · rfl
    · split
      · split <;> rfl
      · rfl
    · rfl
  · exact (handlePromise_same C E m _ _).1
  · rfl

theorem addHeaders_src (C : Ctx D H) (m : Rm D H) (d : D) (fin : Bool) : (m.addHeaders C d fin).1.src = m.src := by
  unfold Rm.addHeaders
  cases C.check d with
  | error e => rfl
  | ok x =>
    obtain ⟨k, h⟩ := x
    simp only
    split
    · rfl
    · have h1 : (if k = .connect then m.emit (.connect h)
          else m.emit (.headers h (decide (k = .interim)) fin)).src = m.src := by split <;> rfl
      split
      · exact h1
      · exact h1

theorem decodeHeaders_src (C : Ctx D H) (E : Env D) (m : Rm D H) (b : Bytes) (f : Bool) :
    (m.decodeHeaders C E b f).1.src = m.src := by
  unfold Rm.decodeHeaders
  cases C.refers b with
  | error e => rfl
  | ok ref =>
    simp only
    split
    · rfl
    · have hd := (decode_same C E m b).1
      cases hx : m.decode C E b with
      | mk m1 o =>
        rw [hx] at hd
        simp only at hd
        cases o with
        | error e => exact hd
        | ok o =>
          cases o with
          | none => exact hd
          | some d =>
            simp only
            have := addHeaders_src C m1 d f
            rw [hd] at this
            cases hy : m1.addHeaders C d f with
            | mk m2 o => rw [hy] at this; cases o <;> exact this

theorem loop_avail (C : Ctx D H) (E : Env D) (post : Bool) : ∀ (fuel : Nat) (m : Rm D H),
    (m.loop C E post fuel).1.src.avail.length ≤ m.src.avail.length := by
  intro fuel
  induction fuel with
  | zero => intro m; exact Nat.le_refl _
  | succ fuel ih =>
    intro m
    unfold Rm.loop
    cases hr : m.st.reader with
    | some r =>
      simp only
      cases hx : r.receive (hDecoder C.prio) m.src with
      | error e => exact Nat.le_refl _
      | ok x =>
        obtain ⟨r', s', o, fin⟩ := x
        have hle := receiveLoop_avail _ _ _ _ _ _ _ _ hx
        cases o with
        | none =>
          simp only
          split
          · rw [setClosePending_src]; exact hle
          · exact hle
        | some f =>
          simp only
          have h1 := handleFrame_src C E { m with st := m.st.withReader r', src := s' } f fin
          cases hy : Rm.handleFrame C E { m with st := m.st.withReader r', src := s' } f fin with
          | mk m2 o =>
            rw [hy] at h1
            simp only at h1
            cases o with
            | some e => simp only; rw [h1]; exact hle
            | none =>
              simp only
              split
              · simp only; rw [h1]; exact hle
              · split
                · rw [setClosePending_src, h1]; exact hle
                · exact Nat.le_trans (ih m2) (by rw [h1]; exact hle)
    | none =>
      simp only
      cases hs : m.st with
      | decoding b f =>
        simp only
        have h1 := decodeHeaders_src C E m b f
        cases hx : m.decodeHeaders C E b f with
        | mk m1 y =>
          obtain ⟨o, go⟩ := y
          rw [hx] at h1
          simp only at h1
          cases o with
          | some e => simp only; rw [h1]
          | none =>
            cases go with
            | false => simp only; rw [h1]
            | true => exact Nat.le_trans (ih m1) (by rw [h1])
      | reading l => cases post <;> exact Nat.le_refl _
      | _ => exact Nat.le_refl _

/-! ## Nothing is left to be read -/

/-- A read would get nothing. -/
def Drained (m : Rm D H) : Prop :=
  m.st ≠ .closePending ∧ ∀ l, m.st = .reading l → m.src = ⟨[], false⟩

theorem reports_append (a b : List (Up D H)) : reports (a ++ b) = reports a + reports b := by
  simp [reports]

theorem reports_mono {a b : List (Up D H)} (h : a <+: b) : reports a ≤ reports b := by
  obtain ⟨c, rfl⟩ := h
  rw [reports_append]; omega

theorem reports_readable (m : Rm D H) : reports (m.emit .readable).out = reports m.out + 1 := by
  rw [Rm.emit, reports_append]; rfl

/-- When frames are read, either nothing is left or the stream is reported readable. -/
theorem setClosePending_reports {m m' : Rm D H} (hr : ∃ r, m.st.reader = some r)
    (h : m.setClosePending true = (m', none)) : reports m.out < reports m'.out := by
  obtain ⟨r, hr⟩ := hr
  unfold Rm.setClosePending at h
  cases hs : m.st with
  | waitHeaders r => rw [hs] at h; cases h
  | waitData r =>
    rw [hs] at h; cases h
    have := reports_readable m
    show _ < reports (m.emit .readable).out
    omega
  | waitFin r =>
    rw [hs] at h; cases h
    have := reports_readable m
    show _ < reports (m.emit .readable).out
    omega
  | _ => rw [hs] at hr; cases hr

theorem drained_reader {m : Rm D H} {r : Reader} (h : m.st.reader = some r) : Drained m := by
  refine ⟨?_, ?_⟩
  · intro h'; rw [h'] at h; cases h
  · intro l h'; rw [h'] at h; cases h

theorem withReader_reader {st : RmState} {r r' : Reader} (h : st.reader = some r) :
    (st.withReader r').reader = some r' := by
  cases st <;> first | rfl | cases h

/-- After a frame: the end of the stream does not come with the payload of a `DATA` frame. -/
theorem handleFrame_reader {C : Ctx D H} {E : Env D} {m m' : Rm D H} {r : Reader} {f : HFrame}
    (hr : m.st.reader = some r) (h : m.handleFrame C E f true = (m', none)) :
    m'.st.isDecoding = true ∨ ∃ r, m'.st.reader = some r := by
  cases f with
  | headers b =>
    simp only [Rm.handleFrame, Rm.handleHeaders] at h
    cases hs : m.st with
    | waitHeaders r =>
      rw [hs] at h
      simp only at h
      split at h
      · cases h
      · cases h; exact .inl rfl
    | waitData r => rw [hs] at h; cases h; exact .inr ⟨_, rfl⟩
    | waitFin r => rw [hs] at h; cases h
    | _ => rw [hs] at hr; cases hr
  | data l =>
    simp only [Rm.handleFrame, Rm.handleData] at h
    cases hs : m.st with
    | waitHeaders r => rw [hs] at h; cases h
    | waitData r =>
      rw [hs] at h
      simp only [if_true] at h
      split at h
      · cases h
      · cases h; exact .inr ⟨r, by rw [hs]; rfl⟩
    | waitFin r => rw [hs] at h; cases h
    | _ => rw [hs] at hr; cases hr
  | pushPromise id b =>
    have := (handlePromise_same C E m id b).2
    simp only [Rm.handleFrame] at h
    rw [h] at this
    exact .inr ⟨r, by simp only at this; rw [this]; exact hr⟩
  | _ => cases h

theorem decodeHeaders_stop {C : Ctx D H} {E : Env D} {m m' : Rm D H} {b : Bytes} {f : Bool}
    (hs : m.st = .decoding b f) (h : m.decodeHeaders C E b f = (m', none, false)) : Drained m' := by
  have hdr : ∀ x : Rm D H, x.st = m.st → Drained x := by
    intro x hx
    rw [hs] at hx
    exact ⟨by rw [hx]; simp, fun l h => by rw [hx] at h; cases h⟩
  unfold Rm.decodeHeaders at h
  cases hx : C.refers b with
  | error e => rw [hx] at h; cases h
  | ok ref =>
    rw [hx] at h
    simp only at h
    split at h
    · cases h; exact hdr _ rfl
    · have hd := (decode_same C E m b).2.1
      cases hy : m.decode C E b with
      | mk m1 o =>
        rw [hy] at h hd
        cases o with
        | error e => cases h
        | ok o =>
          cases o with
          | none => cases h; exact hdr _ hd
          | some d =>
            simp only at h
            cases hz : m1.addHeaders C d f with
            | mk m2 o =>
              rw [hz] at h
              cases o with
              | some e => cases h
              | none =>
                simp only [Prod.mk.injEq, true_and, Bool.not_eq_false'] at h
                obtain ⟨rfl, h⟩ := h
                rw [Bool.or_eq_true, decide_eq_true_iff, decide_eq_true_iff] at h
                rcases h with h | h
                · exact ⟨by rw [h]; simp, fun l h' => by rw [h] at h'; cases h'⟩
                · exact ⟨by rw [h]; simp, fun l h' => by rw [h] at h'; cases h'⟩

theorem loop_reports {C : Ctx D H} {E : Env D} : ∀ (fuel : Nat) (m m' : Rm D H),
    m.loop C E true fuel = (m', none) → Drained m' ∨ reports m.out < reports m'.out := by
  intro fuel
  induction fuel with
  | zero => intro m m' h; cases h
  | succ fuel ih =>
    intro m m' h
    have hout := loop_out C E true (fuel + 1) m
    rw [h] at hout
    unfold Rm.loop at h
    cases hr : m.st.reader with
    | some r =>
      rw [hr] at h
      simp only at h
      cases hx : r.receive (hDecoder C.prio) m.src with
      | error e => rw [hx] at h; cases h
      | ok x =>
        obtain ⟨r', s', o, fin⟩ := x
        rw [hx] at h
        cases o with
        | none =>
          simp only at h
          split at h
          · exact .inr (setClosePending_reports (m := { m with st := m.st.withReader r', src := s' })
              ⟨r', withReader_reader hr⟩ h)
          · cases h
            exact .inl (drained_reader (r := r') (withReader_reader hr))
        | some f =>
          simp only at h
          have h1 := handleFrame_out C E { m with st := m.st.withReader r', src := s' } f fin
          cases hy : Rm.handleFrame C E { m with st := m.st.withReader r', src := s' } f fin with
          | mk m2 o =>
            rw [hy] at h h1
            simp only at h1
            cases o with
            | some e => cases h
            | none =>
              simp only at h
              split at h
              · rename_i hc
                cases h
                exact .inl ⟨by rw [hc]; simp, fun l h' => by rw [hc] at h'; cases h'⟩
              · split at h
                · rename_i hf
                  rw [Bool.and_eq_true, Bool.not_eq_true'] at hf
                  rw [hf.1] at hy
                  rcases handleFrame_reader (m := { m with st := m.st.withReader r', src := s' })
                    (withReader_reader hr) hy with hd | hd
                  · rw [hd] at hf; cases hf.2
                  · have := setClosePending_reports hd h
                    have := reports_mono h1
                    omega
                · rcases ih m2 m' h with hh | hh
                  · exact .inl hh
                  · have := reports_mono h1
                    omega
    | none =>
      rw [hr] at h
      simp only at h
      cases hs : m.st with
      | decoding b f =>
        rw [hs] at h
        simp only at h
        cases hx : m.decodeHeaders C E b f with
        | mk m1 y =>
          obtain ⟨o, go⟩ := y
          rw [hx] at h
          cases o with
          | some e => cases h
          | none =>
            cases go with
            | false => cases h; exact .inl (decodeHeaders_stop hs hx)
            | true =>
              have h2 : m.out <+: m1.out := by
                have := loop_out C E true 0 m1
                have h3 : m.out <+: (m.decodeHeaders C E b f).1.out := by
                  unfold Rm.decodeHeaders
                  cases C.refers b with
                  | error e => exact List.prefix_refl _
                  | ok ref =>
                    simp only
                    split
                    · exact List.prefix_refl _
                    · have hd := decode_out C E m b
                      cases hx : m.decode C E b with
                      | mk m1 o =>
                        rw [hx] at hd
                        simp only at hd
                        cases o with
                        | error e => simp only; rw [hd]; exact List.prefix_refl _
                        | ok o =>
                          cases o with
                          | none => simp only; rw [hd]; exact List.prefix_refl _
                          | some d =>
                            simp only
                            have := addHeaders_out C m1 d f
                            rw [hd] at this
                            cases hy : m1.addHeaders C d f with
                            | mk m2 o => rw [hy] at this; cases o <;> exact this
                rw [hx] at h3
                exact h3
              rcases ih m1 m' h with hh | hh
              · exact .inl hh
              · have := reports_mono h2
                omega
      | reading l =>
        rw [hs] at h
        cases h
        have := reports_readable m
        right
        show _ < reports (m.emit .readable).out
        omega
      | connect =>
        rw [hs] at h
        cases h
        exact .inl ⟨by rw [hs]; simp, fun l h' => by rw [hs] at h'; cases h'⟩
      | _ => rw [hs] at h; cases h

theorem unblock_same {C : Ctx D H} {E : Env D} : ∀ (fuel : Nat) (m m' : Rm D H) (o : Option RErr) (b : Bool),
    m.unblock C E fuel = (m', o, b) → m'.src = m.src ∧ m'.st = m.st ∧ m.out <+: m'.out := by
  intro fuel
  induction fuel with
  | zero => intro m m' o b h; cases h; exact ⟨rfl, rfl, List.prefix_refl _⟩
  | succ fuel ih =>
    intro m m' o b h
    unfold Rm.unblock at h
    cases hb : m.blocked with
    | nil => rw [hb] at h; cases h; exact ⟨rfl, rfl, List.prefix_refl _⟩
    | cons x rest =>
      obtain ⟨id, blk⟩ := x
      rw [hb] at h
      simp only at h
      have hd := decode_same C E m blk
      cases hx : m.decode C E blk with
      | mk m1 y =>
        rw [hx] at h hd
        simp only at hd
        cases y with
        | error e => cases h; exact ⟨hd.1, hd.2.1, by rw [hd.2.2.1]; exact List.prefix_refl _⟩
        | ok y =>
          cases y with
          | none => cases h; exact ⟨hd.1, hd.2.1, by rw [hd.2.2.1]; exact List.prefix_refl _⟩
          | some d =>
            simp only at h
            cases ha : E.accept id d with
            | error e => rw [ha] at h; cases h; exact ⟨hd.1, hd.2.1, by rw [hd.2.2.1]; exact List.prefix_refl _⟩
            | ok u =>
              rw [ha] at h
              obtain ⟨h1, h2, h3⟩ := ih _ _ _ _ h
              refine ⟨h1.trans hd.1, h2.trans hd.2.1, List.IsPrefix.trans ?_ h3⟩
              rw [← hd.2.2.1]
              exact List.prefix_append _ _

/-- An arrival: nothing is left to be read, or the stream is reported readable. -/
theorem arrival_reports {C : Ctx D H} {m m' : Rm D H} (x : Arrival D) (hd : Drained m)
    (h : m.step C x.op = (m', none)) : Drained m' ∨ reports m.out < reports m'.out := by
  cases x with
  | bytes bs fin E =>
    simp only [Arrival.op, Rm.step] at h
    split at h
    · rename_i he
      cases h
      left
      refine ⟨hd.1, fun l hl => ?_⟩
      have hl' : m.st = .reading l := hl
      simp [Rm.ended, hl'] at he
    · exact loop_reports (m := { m with src := m.src.add bs fin }) _ _ h
  | table n E =>
    simp only [Arrival.op, Rm.step] at h
    split at h
    · cases h; exact .inl hd
    · split at h
      · split at h
        · cases h; exact .inl hd
        · unfold Rm.headerUnblocked at h
          cases hx : ({ m with n := n, waiting := none } : Rm D H).unblock C E (m.blocked.length + 1) with
          | mk m1 y =>
            obtain ⟨o, all⟩ := y
            have hsame := unblock_same _ _ _ _ _ hx
            have h' : (match ({ m with n := n, waiting := none } : Rm D H).unblock C E (m.blocked.length + 1) with
              | (m1, some e, _) => (m1, some e)
              | (m1, none, false) => (m1, none)
              | (m1, none, true) => m1.receive C E) = (m', none) := h
            rw [hx] at h'
            cases o with
            | some e => cases h'
            | none =>
              cases all with
              | false =>
                cases h'
                left
                refine ⟨by rw [hsame.2.1]; exact hd.1, fun l hl => ?_⟩
                rw [hsame.1]
                exact hd.2 l (by rw [← hl]; exact hsame.2.1.symm)
              | true =>
                have h3 := reports_mono hsame.2.2
                simp only at h3
                rcases loop_reports _ _ _ h' with hh | hh
                · exact .inl hh
                · omega
      · cases h; exact .inl hd

theorem unblock_step_out {C : Ctx D H} {m m' : Rm D H} {o : Option RErr} (x : Arrival D)
    (h : m.step C x.op = (m', o)) : m.out <+: m'.out := by
  cases x with
  | bytes bs fin E =>
    simp only [Arrival.op, Rm.step] at h
    split at h
    · cases h; exact List.prefix_refl _
    · have := loop_out C E true (Rm.fuel { m with src := m.src.add bs fin }) { m with src := m.src.add bs fin }
      unfold Rm.receive at h
      rw [h] at this
      exact this
  | table n E =>
    simp only [Arrival.op, Rm.step] at h
    split at h
    · cases h; exact List.prefix_refl _
    · split at h
      · split at h
        · cases h; exact List.prefix_refl _
        · unfold Rm.headerUnblocked at h
          cases hx : ({ m with n := n, waiting := none } : Rm D H).unblock C E (m.blocked.length + 1) with
          | mk m1 y =>
            obtain ⟨o', all⟩ := y
            have hsame := (unblock_same _ _ _ _ _ hx).2.2
            have h' : (match ({ m with n := n, waiting := none } : Rm D H).unblock C E (m.blocked.length + 1) with
              | (m1, some e, _) => (m1, some e)
              | (m1, none, false) => (m1, none)
              | (m1, none, true) => m1.receive C E) = (m', o) := h
            rw [hx] at h'
            cases o' with
            | some e => cases h'; exact hsame
            | none =>
              cases all with
              | false => cases h'; exact hsame
              | true =>
                have := loop_out C E true m1.fuel m1
                have h'' : m1.loop C E true m1.fuel = (m', o) := h'
                rw [h''] at this
                exact hsame.trans this
      · cases h; exact List.prefix_refl _

theorem arrivals_reports {C : Ctx D H} : ∀ (xs : List (Arrival D)) {m m' : Rm D H}, Drained m →
    m.run C (xs.map Arrival.op) = (m', none) → Drained m' ∨ reports m.out < reports m'.out := by
  have hmono : ∀ (xs : List (Arrival D)) {m m' : Rm D H} {o}, m.run C (xs.map Arrival.op) = (m', o) → m.out <+: m'.out := by
    intro xs
    induction xs with
    | nil => intro m m' o h; cases h; exact List.prefix_refl _
    | cons x xs ih =>
      intro m m' o h
      simp only [List.map_cons, Rm.run] at h
      cases hx : m.step C x.op with
      | mk m1 e =>
        rw [hx] at h
        cases e with
        | some e => cases h; exact unblock_step_out x hx
        | none => exact (unblock_step_out x hx).trans (ih h)
  intro xs
  induction xs with
  | nil => intro m m' hd h; cases h; exact .inl hd
  | cons x xs ih =>
    intro m m' hd h
    simp only [List.map_cons, Rm.run] at h
    cases hx : m.step C x.op with
    | mk m1 e =>
      rw [hx] at h
      cases e with
      | some e => cases h
      | none =>
        have h1 := reports_mono (unblock_step_out x hx)
        have h2 := reports_mono (hmono xs h)
        rcases arrival_reports x hd hx with hh | hh
        · rcases ih hh h with h3 | h3
          · exact .inl h3
          · right; omega
        · right; omega

/-! ## Reading until less is returned than asked for -/

theorem readLoop_drains {C : Ctx D H} {E : Env D} : ∀ (fuel room : Nat) (g : Bytes) (m m' : Rm D H),
    m.readLoop C E fuel room g = (m', none) →
    m'.lastRead.1.length ≤ g.length + room ∧
    m'.src.avail.length + m'.lastRead.1.length ≤ m.src.avail.length + g.length ∧
    (m'.lastRead.1.length < g.length + room ∨ m'.lastRead.2 = true → Drained m') := by
  intro fuel
  induction fuel with
  | zero => intro room g m m' h; cases h
  | succ fuel ih =>
    intro room g m m' h
    cases hs : m.st with
    | reading left =>
      rw [readLoop_reading C E fuel room g m left hs] at h
      simp only at h
      have hin : (m.src.avail.take (min left room)).length ≤ room := by rw [List.length_take]; omega
      have hsum : (m.src.avail.drop (min left room)).length + (m.src.avail.take (min left room)).length
          = m.src.avail.length := by rw [List.length_drop, List.length_take]; omega
      split at h
      · split at h
        · cases h
        · cases h
          simp only [Rm.lastRead, Rm.emit, Rm.setClosed, List.getLast?_append, List.getLast?_singleton,
            Option.some_or, List.length_append]
          exact ⟨by omega, by omega, fun _ => ⟨by simp, fun l h => by cases h⟩⟩
      · rename_i hnf
        split at h
        · generalize hm1 : ({ m with st := .waitData Reader.new, src := { m.src with avail := m.src.avail.drop (min left room) } } : Rm D H) = m1 at h
          have ho := loop_avail C E false (Rm.fuel { m with st := .reading (left - (m.src.avail.take (min left room)).length), src := { m.src with avail := m.src.avail.drop (min left room) } }) m1
          cases hx : m1.loop C E false (Rm.fuel { m with st := .reading (left - (m.src.avail.take (min left room)).length), src := { m.src with avail := m.src.avail.drop (min left room) } }) with
          | mk m2 o =>
            rw [hx] at h ho
            cases o with
            | some e => cases h
            | none =>
              simp only at h ho
              obtain ⟨h1, h2, h3⟩ := ih _ _ _ _ h
              rw [List.length_append] at h1 h2 h3
              have hm1' : m1.src.avail.length = (m.src.avail.drop (min left room)).length := by rw [← hm1]
              refine ⟨by omega, by omega, fun hh => h3 ?_⟩
              rcases hh with hh | hh
              · left; omega
              · exact .inr hh
        · rename_i hl
          cases h
          simp only [Rm.lastRead, Rm.emit, List.getLast?_append, List.getLast?_singleton,
            Option.some_or, List.length_append]
          refine ⟨by omega, by omega, fun hh => ⟨by simp, fun l _ => ?_⟩⟩
          have hlt : (m.src.avail.take (min left room)).length < room := by
            rcases hh with hh | hh
            · omega
            · cases hh
          rw [List.length_take] at hlt hl
          have hle : m.src.avail.length ≤ min left room := by omega
          have hfin : m.src.fin = false := by
            cases hf : m.src.fin with
            | false => rfl
            | true => rw [hf, decide_eq_true hle] at hnf; exact absurd rfl hnf
          simp only [hfin, List.drop_of_length_le hle]
    | closePending =>
      simp only [Rm.readLoop, hs] at h
      cases h
      simp only [Rm.lastRead, Rm.emit, Rm.setClosed, List.getLast?_append, List.getLast?_singleton, Option.some_or]
      exact ⟨by omega, by omega, fun _ => ⟨by simp, fun l h => by cases h⟩⟩
    | _ =>
      simp only [Rm.readLoop, hs] at h
      cases h
      simp only [Rm.lastRead, Rm.emit, List.getLast?_append, List.getLast?_singleton, Option.some_or]
      exact ⟨by omega, by omega, fun _ => ⟨by rw [hs]; simp, fun l h => by rw [hs] at h; cases h⟩⟩

theorem prepare_drains {C : Ctx D H} {E : Env D} {room : Nat} : ∀ (fuel : Nat) (m m' : Rm D H),
    m.prepare C E room fuel = (m', none) → Drained m' := by
  intro fuel
  induction fuel with
  | zero => intro m m' h; cases h
  | succ fuel ih =>
    intro m m' h
    unfold Rm.prepare at h
    split at h
    · rename_i hc
      cases h
      exact ⟨by rw [hc]; simp, fun l h' => by rw [hc] at h'; cases h'⟩
    · rename_i hc
      simp only [Rm.step, if_neg hc] at h
      cases hx : m.readLoop C E (m.src.avail.length + 2) room [] with
      | mk m1 o =>
        rw [hx] at h
        cases o with
        | some e => cases h
        | none =>
          simp only at h
          split at h
          · rename_i hlt
            cases h
            obtain ⟨_, _, h3⟩ := readLoop_drains _ _ _ _ _ hx
            refine h3 ?_
            rcases hlt with hlt | hlt
            · left; simpa using hlt
            · exact .inr hlt
          · exact ih _ _ h

theorem prepareAll_drains {C : Ctx D H} {E : Env D} {room : Nat} : ∀ (k : Nat) (m m' : Rm D H),
    (0 < k ∨ Drained m) → m.prepareAll C E room k = (m', none) → Drained m' := by
  intro k
  induction k with
  | zero =>
    intro m m' hd h
    cases h
    rcases hd with hd | hd
    · omega
    · exact hd
  | succ k ih =>
    intro m m' _ h
    unfold Rm.prepareAll at h
    cases hx : m.prepare C E room (m.src.avail.length + 1) with
    | mk m1 o =>
      rw [hx] at h
      cases o with
      | some e => cases h
      | none => exact ih _ _ (.inr (prepare_drains _ _ _ hx)) h

theorem serve_drains {C : Ctx D H} {room : Nat} {m m' : Rm D H} {x : List (Arrival D) × Env D} (hd : Drained m)
    (h : m.serve C room x = (m', none)) : Drained m' := by
  unfold Rm.serve at h
  cases hx : m.run C (x.1.map Arrival.op) with
  | mk m1 o =>
    rw [hx] at h
    cases o with
    | some e => cases h
    | none =>
      refine prepareAll_drains _ _ _ ?_ h
      rcases arrivals_reports x.1 hd hx with hh | hh
      · exact .inr hh
      · left; omega

theorem serveRun_drains {C : Ctx D H} {room : Nat} : ∀ (xs : List (List (Arrival D) × Env D)) {m m' : Rm D H},
    Drained m → m.serveRun C room xs = (m', none) → Drained m' := by
  intro xs
  induction xs with
  | nil => intro m m' hd h; cases h; exact hd
  | cons x xs ih =>
    intro m m' hd h
    unfold Rm.serveRun at h
    cases hx : m.serve C room x with
    | mk m1 o =>
      rw [hx] at h
      cases o with
      | some e => cases h
      | none => exact ih (serve_drains hd hx) h

/-! ## The server as a reader -/

theorem run_append {C : Ctx D H} : ∀ (a b : List (RmOp D)) {m m' : Rm D H},
    m.run C a = (m', none) → m.run C (a ++ b) = m'.run C b := by
  intro a
  induction a with
  | nil => intro b m m' h; cases h; rfl
  | cons op a ih =>
    intro b m m' h
    simp only [List.cons_append, Rm.run] at h ⊢
    cases hx : m.step C op with
    | mk m1 e =>
      rw [hx] at h
      cases e with
      | some e => cases h
      | none => exact ih b h

theorem run_append_error {C : Ctx D H} : ∀ (a b : List (RmOp D)) {m m' : Rm D H} {e : RErr},
    m.run C a = (m', some e) → m.run C (a ++ b) = (m', some e) := by
  intro a
  induction a with
  | nil => intro b m m' e h; cases h
  | cons op a ih =>
    intro b m m' e h
    simp only [List.cons_append, Rm.run] at h ⊢
    cases hx : m.step C op with
    | mk m1 o =>
      rw [hx] at h
      cases o with
      | some e => exact h
      | none => exact ih b h

/-- Reads only. -/
def Reads (ops : List (RmOp D)) : Prop := ∀ op ∈ ops, ∃ room E, op = .read room E

theorem total_reads (s : Src) : ∀ (ops : List (RmOp D)), Reads ops → total s ops = s := by
  intro ops
  induction ops with
  | nil => intro _; rfl
  | cons op ops ih =>
    intro h
    obtain ⟨room, E, rfl⟩ := h op (List.mem_cons_self ..)
    exact ih fun o ho => h o (List.mem_cons_of_mem _ ho)

theorem prepare_run {C : Ctx D H} {E : Env D} {room : Nat} (hroom : 0 < room) : ∀ (fuel : Nat) (m m' : Rm D H)
    (o : Option RErr), m.src.avail.length < fuel → m.prepare C E room fuel = (m', o) →
    ∃ ops, Reads ops ∧ m.run C ops = (m', o) := by
  intro fuel
  induction fuel with
  | zero => intro m m' o hf h; omega
  | succ fuel ih =>
    intro m m' o hf h
    unfold Rm.prepare at h
    split at h
    · cases h; exact ⟨[], (fun _ h => absurd h (List.not_mem_nil)), rfl⟩
    · rename_i hc
      cases hx : m.step C (.read room E) with
      | mk m1 e =>
        rw [hx] at h
        cases e with
        | some e =>
          cases h
          refine ⟨[.read room E], fun op hop => ⟨room, E, List.mem_singleton.mp hop⟩, ?_⟩
          simp only [Rm.run, hx]
        | none =>
          simp only at h
          split at h
          · cases h
            refine ⟨[.read room E], fun op hop => ⟨room, E, List.mem_singleton.mp hop⟩, ?_⟩
            simp only [Rm.run, hx]
          · rename_i hge
            have hx' := hx
            simp only [Rm.step, if_neg hc] at hx'
            obtain ⟨_, h2, _⟩ := readLoop_drains _ _ _ _ _ hx'
            rw [not_or] at hge
            simp only [List.length_nil] at h2
            obtain ⟨ops, h3, h4⟩ := ih m1 m' o (by omega) h
            refine ⟨.read room E :: ops, fun op hop => ?_, ?_⟩
            · rcases List.mem_cons.mp hop with rfl | hop
              · exact ⟨room, E, rfl⟩
              · exact h3 op hop
            · simp only [Rm.run, hx]; exact h4

theorem prepareAll_run {C : Ctx D H} {E : Env D} {room : Nat} (hroom : 0 < room) : ∀ (k : Nat) (m m' : Rm D H)
    (o : Option RErr), m.prepareAll C E room k = (m', o) → ∃ ops, Reads ops ∧ m.run C ops = (m', o) := by
  intro k
  induction k with
  | zero => intro m m' o h; cases h; exact ⟨[], (fun _ h => absurd h (List.not_mem_nil)), rfl⟩
  | succ k ih =>
    intro m m' o h
    unfold Rm.prepareAll at h
    cases hx : m.prepare C E room (m.src.avail.length + 1) with
    | mk m1 e =>
      rw [hx] at h
      obtain ⟨a, ha1, ha2⟩ := prepare_run hroom _ _ _ _ (Nat.lt_succ_self _) hx
      cases e with
      | some e => cases h; exact ⟨a, ha1, ha2⟩
      | none =>
        obtain ⟨b, hb1, hb2⟩ := ih _ _ _ h
        refine ⟨a ++ b, fun op hop => ?_, by rw [run_append a b ha2]; exact hb2⟩
        rcases List.mem_append.mp hop with hop | hop
        · exact ha1 op hop
        · exact hb1 op hop

/-- What the server does is what a reader does, and the stream is the same. -/
theorem serveRun_run {C : Ctx D H} {room : Nat} (hroom : 0 < room) : ∀ (xs : List (List (Arrival D) × Env D))
    (m m' : Rm D H) (o : Option RErr), m.serveRun C room xs = (m', o) →
    ∃ ops, m.run C ops = (m', o) ∧ ∃ ys rest, ((xs.flatMap Prod.fst).map Arrival.op) = ys ++ rest ∧
      (∀ s, total s ops = total s ys) ∧ (o = none → rest = []) := by
  intro xs
  induction xs with
  | nil => intro m m' o h; cases h; exact ⟨[], rfl, [], [], rfl, fun _ => rfl, fun _ => rfl⟩
  | cons x xs ih =>
    intro m m' o h
    unfold Rm.serveRun Rm.serve at h
    rw [List.flatMap_cons, List.map_append]
    cases hx : m.run C (x.1.map Arrival.op) with
    | mk m1 e =>
      rw [hx] at h
      cases e with
      | some e =>
        cases h
        exact ⟨x.1.map Arrival.op, hx, x.1.map Arrival.op, _, rfl, fun _ => rfl, fun h => by cases h⟩
      | none =>
        simp only at h
        cases hy : m1.prepareAll C x.2 room (reports m1.out - reports m.out) with
        | mk m2 e =>
          rw [hy] at h
          obtain ⟨b, hb1, hb2⟩ := prepareAll_run hroom _ _ _ _ hy
          have hab := run_append (x.1.map Arrival.op) b hx
          rw [hb2] at hab
          cases e with
          | some e =>
            cases h
            exact ⟨_, hab, x.1.map Arrival.op, _, rfl,
              fun s => by rw [total_append, total_reads _ b hb1], fun h => by cases h⟩
          | none =>
            simp only at h
            obtain ⟨c, hc1, ys, rest, hc2, hc3, hc4⟩ := ih _ _ _ h
            refine ⟨(x.1.map Arrival.op ++ b) ++ c, by rw [run_append _ c hab]; exact hc1,
              x.1.map Arrival.op ++ ys, rest, by rw [hc2, List.append_assoc], fun s => ?_, hc4⟩
            rw [total_append, total_append, total_reads _ b hb1, hc3, total_append]

/-! ## The size of the pieces -/

def Up.isData : Up D H → Bool
  | .data _ _ => true
  | _ => false

/-- The data that were passed up. -/
def pieces (l : List (Up D H)) : List (Up D H) := l.filter Up.isData

theorem pieces_append (a b : List (Up D H)) : pieces (a ++ b) = pieces a ++ pieces b := by simp [pieces]

theorem pieces_emit {u : Up D H} (m : Rm D H) (h : u.isData = false) : pieces (m.emit u).out = pieces m.out := by
  rw [Rm.emit, pieces_append]
  simp [pieces, h]

theorem setClosePending_pieces (m : Rm D H) (post : Bool) : pieces (m.setClosePending post).1.out = pieces m.out := by
  unfold Rm.setClosePending
  split
  · rfl
  · rfl
  · cases post
    · rfl
    · exact pieces_emit (u := .readable) m rfl
  · cases post
    · rfl
    · exact pieces_emit (u := .readable) m rfl
  · rfl

theorem handleFrame_pieces (C : Ctx D H) (E : Env D) (m : Rm D H) (f : HFrame) (fin : Bool) :
    pieces (m.handleFrame C E f fin).1.out = pieces m.out := by
  unfold Rm.handleFrame
  split
  · unfold Rm.handleHeaders
    split
    · split <;> rfl
    all_goals rfl
  · unfold Rm.handleData
    split
    · rfl
    · rfl
    · split
      · split <;> rfl
      · rfl
    · rfl
  · unfold Rm.handlePromise
    split
    · rfl
    · split
      · rfl
      · rename_i id b _ _
        have hd := decode_out C E m b
        cases hx : m.decode C E b with
        | mk m1 o =>
          rw [hx] at hd
          simp only at hd
          cases o with
          | error e => simp only; rw [hd]
          | ok o =>
            cases o with
            | none => simp only; rw [hd]
            | some d =>
              simp only
              cases E.accept id d with
              | error e => simp only; rw [hd]
              | ok u => simp only; rw [pieces_emit m1 rfl, hd]
  · rfl

theorem addHeaders_pieces (C : Ctx D H) (m : Rm D H) (d : D) (fin : Bool) :
    pieces (m.addHeaders C d fin).1.out = pieces m.out := by
  unfold Rm.addHeaders
  cases C.check d with
  | error e => rfl
  | ok x =>
    obtain ⟨k, h⟩ := x
    simp only
    split
    · rfl
    · have h1 : pieces (if k = .connect then m.emit (.connect h)
          else m.emit (.headers h (decide (k = .interim)) fin)).out = pieces m.out := by
        split <;> exact pieces_emit m rfl
      split
      · simp only [Rm.setClosed]
        rw [pieces_emit _ rfl]
        exact h1
      · exact h1

theorem decodeHeaders_pieces (C : Ctx D H) (E : Env D) (m : Rm D H) (b : Bytes) (f : Bool) :
    pieces (m.decodeHeaders C E b f).1.out = pieces m.out := by
  unfold Rm.decodeHeaders
  cases C.refers b with
  | error e => rfl
  | ok ref =>
    simp only
    split
    · rfl
    · have hd := decode_out C E m b
      cases hx : m.decode C E b with
      | mk m1 o =>
        rw [hx] at hd
        simp only at hd
        cases o with
        | error e => simp only; rw [hd]
        | ok o =>
          cases o with
          | none => simp only; rw [hd]
          | some d =>
            simp only
            have := addHeaders_pieces C m1 d f
            rw [hd] at this
            cases hy : m1.addHeaders C d f with
            | mk m2 o => rw [hy] at this; cases o <;> exact this

theorem loop_pieces (C : Ctx D H) (E : Env D) (post : Bool) : ∀ (fuel : Nat) (m : Rm D H),
    pieces (m.loop C E post fuel).1.out = pieces m.out := by
  intro fuel
  induction fuel with
  | zero => intro m; rfl
  | succ fuel ih =>
    intro m
    unfold Rm.loop
    cases hr : m.st.reader with
    | some r =>
      simp only
      cases hx : r.receive (hDecoder C.prio) m.src with
      | error e => rfl
      | ok x =>
        obtain ⟨r', s', o, fin⟩ := x
        cases o with
        | none =>
          simp only
          split
          · exact setClosePending_pieces _ post
          · rfl
        | some f =>
          simp only
          have h1 := handleFrame_pieces C E { m with st := m.st.withReader r', src := s' } f fin
          cases hy : Rm.handleFrame C E { m with st := m.st.withReader r', src := s' } f fin with
          | mk m2 o =>
            rw [hy] at h1
            simp only at h1
            cases o with
            | some e => exact h1
            | none =>
              simp only
              split
              · exact h1
              · split
                · rw [setClosePending_pieces]; exact h1
                · rw [ih m2]; exact h1
    | none =>
      simp only
      cases hs : m.st with
      | decoding b f =>
        simp only
        have h1 := decodeHeaders_pieces C E m b f
        cases hx : m.decodeHeaders C E b f with
        | mk m1 y =>
          obtain ⟨o, go⟩ := y
          rw [hx] at h1
          cases o with
          | some e => exact h1
          | none =>
            cases go with
            | false => exact h1
            | true => exact (ih m1).trans h1
      | reading l =>
        cases post
        · rfl
        · exact pieces_emit m rfl
      | _ => rfl

theorem unblock_pieces {C : Ctx D H} {E : Env D} : ∀ (fuel : Nat) (m : Rm D H),
    pieces (m.unblock C E fuel).1.out = pieces m.out := by
  intro fuel
  induction fuel with
  | zero => intro m; rfl
  | succ fuel ih =>
    intro m
    unfold Rm.unblock
    cases hb : m.blocked with
    | nil => rfl
    | cons x rest =>
      obtain ⟨id, blk⟩ := x
      simp only
      have hd := decode_out C E m blk
      cases hx : m.decode C E blk with
      | mk m1 y =>
        rw [hx] at hd
        simp only at hd
        cases y with
        | error e => simp only; rw [hd]
        | ok y =>
          cases y with
          | none => simp only; rw [hd]
          | some d =>
            simp only
            cases E.accept id d with
            | error e => simp only; rw [hd]
            | ok u => simp only; rw [ih, pieces_emit _ rfl]; show pieces m1.out = _; rw [hd]

theorem arrival_pieces {C : Ctx D H} (m : Rm D H) (x : Arrival D) :
    pieces (m.step C x.op).1.out = pieces m.out := by
  cases x with
  | bytes bs fin E =>
    simp only [Arrival.op, Rm.step]
    split
    · rfl
    · exact loop_pieces C E true _ _
  | table n E =>
    simp only [Arrival.op, Rm.step]
    split
    · rfl
    · split
      · split
        · rfl
        · unfold Rm.headerUnblocked
          have h1 := unblock_pieces (C := C) (E := E) (m.blocked.length + 1) { m with n := n, waiting := none }
          generalize ({ m with n := n, waiting := none } : Rm D H).unblock C E (m.blocked.length + 1) = y at h1 ⊢
          obtain ⟨m1, o, all⟩ := y
          cases o with
          | some e => exact h1
          | none =>
            cases all with
            | false => exact h1
            | true => exact (loop_pieces C E true _ m1).trans h1
      · rfl

/-- The pieces that a read adds: at most one, of at most the size asked for. -/
theorem readLoop_pieces {C : Ctx D H} {E : Env D} : ∀ (fuel room : Nat) (g : Bytes) (m m' : Rm D H) (o : Option RErr),
    m.readLoop C E fuel room g = (m', o) →
    pieces m'.out = pieces m.out ∨ ∃ bs f, pieces m'.out = pieces m.out ++ [.data bs f] ∧ bs.length ≤ g.length + room := by
  intro fuel
  induction fuel with
  | zero => intro room g m m' o h; cases h; exact .inl rfl
  | succ fuel ih =>
    intro room g m m' o h
    have hpf : ∀ bs, pieces (m.out ++ [Up.closed] ++ [.data bs true]) = pieces m.out ++ [.data bs true] := by
      intro bs; rw [pieces_append, pieces_append]; simp [pieces, Up.isData]
    have hpd : ∀ bs, pieces (m.out ++ [.data bs false]) = pieces m.out ++ [.data bs false] := by
      intro bs; rw [pieces_append]; rfl
    cases hs : m.st with
    | reading left =>
      rw [readLoop_reading C E fuel room g m left hs] at h
      simp only at h
      have hin : (m.src.avail.take (min left room)).length ≤ room := by rw [List.length_take]; omega
      split at h
      · split at h
        · cases h; exact .inl rfl
        · cases h
          exact .inr ⟨_, _, hpf _, by rw [List.length_append]; omega⟩
      · split at h
        · generalize hm1 : ({ m with st := .waitData Reader.new, src := { m.src with avail := m.src.avail.drop (min left room) } } : Rm D H) = m1 at h
          have ho := loop_pieces C E false (Rm.fuel { m with st := .reading (left - (m.src.avail.take (min left room)).length), src := { m.src with avail := m.src.avail.drop (min left room) } }) m1
          have hm1' : m1.out = m.out := by rw [← hm1]
          cases hx : m1.loop C E false (Rm.fuel { m with st := .reading (left - (m.src.avail.take (min left room)).length), src := { m.src with avail := m.src.avail.drop (min left room) } }) with
          | mk m2 o2 =>
            rw [hx] at h ho
            rw [hm1'] at ho
            cases o2 with
            | some e => cases h; exact .inl ho
            | none =>
              simp only at h ho
              have h1 := ih _ _ _ _ _ h
              rw [ho, List.length_append] at h1
              rcases h1 with h1 | ⟨bs, f, h1, h2⟩
              · exact .inl h1
              · exact .inr ⟨bs, f, h1, by omega⟩
        · cases h
          exact .inr ⟨_, _, hpd _, by rw [List.length_append]; omega⟩
    | closePending =>
      simp only [Rm.readLoop, hs] at h
      cases h
      exact .inr ⟨_, _, hpf _, by omega⟩
    | _ =>
      simp only [Rm.readLoop, hs] at h
      cases h
      exact .inr ⟨_, _, hpd _, by omega⟩

def Small (room : Nat) (m : Rm D H) : Prop := ∀ bs f, Up.data bs f ∈ pieces m.out → bs.length ≤ room

theorem arrivals_small {C : Ctx D H} : ∀ (xs : List (Arrival D)) {m m' : Rm D H} {o : Option RErr},
    m.run C (xs.map Arrival.op) = (m', o) → pieces m'.out = pieces m.out := by
  intro xs
  induction xs with
  | nil => intro m m' o h; cases h; rfl
  | cons x xs ih =>
    intro m m' o h
    simp only [List.map_cons, Rm.run] at h
    have h1 := arrival_pieces (C := C) m x
    cases hx : m.step C x.op with
    | mk m1 e =>
      rw [hx] at h h1
      cases e with
      | some e => cases h; exact h1
      | none => exact (ih h).trans h1

theorem prepare_small {C : Ctx D H} {E : Env D} {room : Nat} : ∀ (fuel : Nat) (m m' : Rm D H) (o : Option RErr),
    Small room m → m.prepare C E room fuel = (m', o) → Small room m' := by
  intro fuel
  induction fuel with
  | zero => intro m m' o hs h; cases h; exact hs
  | succ fuel ih =>
    intro m m' o hs h
    unfold Rm.prepare at h
    split at h
    · cases h; exact hs
    · rename_i hc
      simp only [Rm.step, if_neg hc] at h
      cases hx : m.readLoop C E (m.src.avail.length + 2) room [] with
      | mk m1 e =>
        rw [hx] at h
        have hs1 : Small room m1 := by
          rcases readLoop_pieces _ _ _ _ _ _ hx with h1 | ⟨bs, f, h1, h2⟩
          · intro bs f hb; rw [h1] at hb; exact hs bs f hb
          · intro bs' f' hb
            rw [h1] at hb
            rcases List.mem_append.mp hb with hb | hb
            · exact hs bs' f' hb
            · have := List.mem_singleton.mp hb
              injection this with h3 h4
              rw [h3]
              simpa using h2
        cases e with
        | some e => cases h; exact hs1
        | none =>
          simp only at h
          split at h
          · cases h; exact hs1
          · exact ih _ _ _ hs1 h

theorem prepareAll_small {C : Ctx D H} {E : Env D} {room : Nat} : ∀ (k : Nat) (m m' : Rm D H) (o : Option RErr),
    Small room m → m.prepareAll C E room k = (m', o) → Small room m' := by
  intro k
  induction k with
  | zero => intro m m' o hs h; cases h; exact hs
  | succ k ih =>
    intro m m' o hs h
    unfold Rm.prepareAll at h
    cases hx : m.prepare C E room (m.src.avail.length + 1) with
    | mk m1 e =>
      rw [hx] at h
      cases e with
      | some e => cases h; exact prepare_small _ _ _ _ hs hx
      | none => exact ih _ _ _ (prepare_small _ _ _ _ hs hx) h

theorem serveRun_small {C : Ctx D H} {room : Nat} : ∀ (xs : List (List (Arrival D) × Env D)) (m m' : Rm D H)
    (o : Option RErr), Small room m → m.serveRun C room xs = (m', o) → Small room m' := by
  intro xs
  induction xs with
  | nil => intro m m' o hs h; cases h; exact hs
  | cons x xs ih =>
    intro m m' o hs h
    unfold Rm.serveRun Rm.serve at h
    cases hx : m.run C (x.1.map Arrival.op) with
    | mk m1 e =>
      have hs1 : Small room m1 := by
        intro bs f hb; rw [arrivals_small x.1 hx] at hb; exact hs bs f hb
      rw [hx] at h
      cases e with
      | some e => cases h; exact hs1
      | none =>
        simp only at h
        cases hy : m1.prepareAll C x.2 room (reports m1.out - reports m.out) with
        | mk m2 e =>
          rw [hy] at h
          have hs2 := prepareAll_small _ _ _ _ hs1 hy
          cases e with
          | some e => cases h; exact hs2
          | none => exact ih _ _ _ hs2 h

/-! ## What the application learns -/

theorem learned_events (l : List (Up D H)) : learned (l.filterMap Up.event) = got l := by
  induction l with
  | nil => rfl
  | cons u l ih =>
    have hcons : ∀ x : Up D H, got (x :: l) = got [x] ++ got l := fun x => got_append [x] l
    have hl : ∀ e, learned (e :: l.filterMap Up.event) = learned (D := D) [e] ++ got l := by
      intro e; rw [← ih]; simp [learned]
    rw [hcons, List.filterMap_cons]
    cases u with
    | headers h i f => simp only [Up.event]; rw [hl]; rfl
    | connect h => simp only [Up.event]; rw [hl]; rfl
    | data bs f =>
      by_cases hb : bs = [] ∧ f = false
      · simp only [Up.event, if_pos hb]
        rw [ih, hb.1, hb.2]; rfl
      · simp only [Up.event, if_neg hb]
        rw [hl]; rfl
    | readable => simp only [Up.event]; rw [ih]; rfl
    | promise i d => simp only [Up.event]; rw [ih]; rfl
    | closed => simp only [Up.event]; rw [ih]; rfl

theorem drained_read {C : Ctx D H} {m : Rm D H} (hd : Drained m) (hpos : ∀ l, m.st = .reading l → 0 < l)
    (E : Env D) : ∃ m', m.step C (.read 1 E) = (m', none) ∧ got m'.out = got m.out := by
  by_cases hc : m.st = .closed
  · exact ⟨m, by simp only [Rm.step, if_pos hc], rfl⟩
  · simp only [Rm.step, if_neg hc]
    cases hs : m.st with
    | reading left =>
      have hsrc := hd.2 left hs
      have hp := hpos left hs
      rw [readLoop_reading C E _ 1 [] m left hs]
      simp only [hsrc, List.take_nil, List.drop_nil, List.length_nil, Bool.false_and, Bool.false_eq_true, if_false,
        Nat.sub_zero, if_neg (show ¬ left = 0 by omega)]
      exact ⟨_, rfl, by simp only [Rm.emit]; rw [got_data]; simp⟩
    | closePending => exact absurd hs hd.1
    | _ =>
      simp only [Rm.readLoop, hs]
      exact ⟨_, rfl, by simp only [Rm.emit]; rw [got_data]; simp⟩

theorem init_drained (first : Option Nat) (n : Nat) : Drained (Rm.init first n : Rm D H) :=
  ⟨by simp [Rm.init], fun l h => by simp [Rm.init] at h⟩

/-- C106: who reads, for every report that a stream is readable, until a read returns less
than was asked for or the end, has all that has arrived of the message.  No report is
missing, whatever the size of the buffer. -/
theorem C106_no_report_is_missing {C : Ctx D H} (hl : C.Laws) {first : Option Nat} {head : Bytes}
    (hs : Starts first head) (n : Nat) {room : Nat} (hroom : 0 < room) (xs : List (List (Arrival D) × Env D)) {m : Rm D H}
    (h : (Rm.init first n : Rm D H).serveRun C room xs = (m, none)) (hw : m.waiting = none) :
    got m.out =
      mains (wholeMessage C (head ++ (arrived xs).avail) (arrived xs).fin).1 := by
  obtain ⟨ops, hrun, ys, rest, h1, h2, h3⟩ := serveRun_run hroom xs _ _ _ h
  have ht : arrived xs = total ⟨[], false⟩ ops := by
    unfold arrived
    rw [h1, h3 rfl, List.append_nil, h2]
  rw [ht]
  have hd := serveRun_drains xs (init_drained first n) h
  obtain ⟨log, lost, pend, _, _, _, hrest⟩ := run_log hl hs n ops hrun (by simp)
  obtain ⟨_, _, hg⟩ := hrest rfl
  have hpos : ∀ l, m.st = .reading l → 0 < l := by
    intro l hst
    have := hg.vst; rw [hst] at this; exact this
  obtain ⟨m', hm1, hm2⟩ := drained_read (C := C) hd hpos ⟨true, fun _ _ => .ok ()⟩
  rcases C71_progress hl hs n ops hrun hw 1 (by omega) ⟨true, fun _ _ => .ok ()⟩ with hp | hp
  · exact hp
  · rw [hm1] at hp
    simp only at hp
    rw [hm2] at hp
    omega

/-- C106: a server tells the application all that it can.  Whatever the division of the
request, the waits for the QPACK table and the calls, after every call the application
has been told everything that has arrived of the message. -/
theorem C106_all_is_passed_on {C : Ctx D H} (hl : C.Laws) {first : Option Nat} {head : Bytes}
    (hs : Starts first head) (n : Nat) (xs : List (List (Arrival D) × Env D)) {m : Rm D H}
    (h : (Rm.init first n : Rm D H).serveRun C maxEventData xs = (m, none)) (hw : m.waiting = none) :
    learned (m.out.filterMap Up.event) =
      mains (wholeMessage C (head ++ (arrived xs).avail) (arrived xs).fin).1 := by
  rw [learned_events]
  exact C106_no_report_is_missing hl hs n (by decide) xs h hw

/-- C106: no event is empty, and none carries more than 1024 bytes. -/
theorem C106_pieces {C : Ctx D H} {first : Option Nat} (n : Nat) (xs : List (List (Arrival D) × Env D)) {m : Rm D H}
    {r : Option RErr} (h : (Rm.init first n : Rm D H).serveRun C maxEventData xs = (m, r)) {bs : Bytes} {fin : Bool}
    (he : SrvEv.data bs fin ∈ m.out.filterMap Up.event) : bs.length ≤ 1024 ∧ (bs ≠ [] ∨ fin = true) := by
  obtain ⟨u, hu, he⟩ := List.mem_filterMap.mp he
  cases u with
  | data bs' fin' =>
    simp only [Up.event] at he
    split at he
    · cases he
    · rename_i hne
      cases he
      refine ⟨serveRun_small xs _ _ _ (fun _ _ h => absurd h List.not_mem_nil) h bs fin
        (List.mem_filter.mpr ⟨hu, rfl⟩), ?_⟩
      cases fin with
      | true => exact .inr rfl
      | false => exact .inl fun hb => hne ⟨hb, rfl⟩
  | _ => cases he

/-- C106: a call of the server ends, and no request makes it panic. -/
theorem C106_no_panic {C : Ctx D H} (hl : C.Laws) {first : Option Nat} {head : Bytes}
    (hs : Starts first head) (n : Nat) (hh : C.handler = false) (xs : List (List (Arrival D) × Env D)) {m : Rm D H}
    {r : Option RErr} (h : (Rm.init first n : Rm D H).serveRun C maxEventData xs = (m, r)) : r ≠ some .panic := by
  obtain ⟨ops, hrun, _⟩ := serveRun_run (by decide) xs _ _ _ h
  exact C71_no_panic_partial hl hs n hh ops hrun

/-- C106: a request that a client's application made is learned as it was made: at any
time a beginning of it, and all of it when all of it has arrived. -/
theorem C106_request_arrives {C : Ctx D H} (hl : C.Laws) {ops : List MsgOp}
    (hund : Understood C false ops) (hops : ∀ op ∈ ops, op.Ok) {first : Option Nat} {head : Bytes}
    (hs : Starts first head) (n : Nat) (xs : List (List (Arrival D) × Env D))
    (hj : Joined (SendMsg.run { response := false } ops).2.2 head (arrived xs)) {m : Rm D H}
    (h : (Rm.init first n : Rm D H).serveRun C maxEventData xs = (m, none)) :
    learned (m.out.filterMap Up.event) <+: conveyed C false (SendMsg.run { response := false } ops).1 ∧
    ((arrived xs).fin = true → m.waiting = none →
      learned (m.out.filterMap Up.event) = conveyed C false (SendMsg.run { response := false } ops).1) := by
  obtain ⟨rops, hrun, ys, rest, h1, h2, h3⟩ := serveRun_run (by decide) xs _ _ _ h
  have ht : arrived xs = total ⟨[], false⟩ rops := by
    unfold arrived
    rw [h1, h3 rfl, List.append_nil, h2]
  have hj' := hj
  rw [ht] at hj'
  refine ⟨?_, fun hfin hw => ?_⟩
  · rw [learned_events]
    exact (C105_received_is_prefix_of_sent (response := false) hl hund hops hs n rops hj' hrun).1
  · have hd := serveRun_drains xs (init_drained first n) h
    obtain ⟨log, lost, pend, _, _, _, hrest⟩ := run_log hl hs n rops hrun (by simp)
    obtain ⟨_, _, hg⟩ := hrest rfl
    have hpos : ∀ l, m.st = .reading l → 0 < l := by
      intro l hst
      have := hg.vst; rw [hst] at this; exact this
    obtain ⟨m', hm1, hm2⟩ := drained_read (C := C) hd hpos ⟨true, fun _ _ => .ok ()⟩
    rw [learned_events]
    rcases C105_all_can_be_read (response := false) hl hund hops hs n rops hj' (by rw [← ht]; exact hfin) hrun hw 1 (by omega)
      ⟨true, fun _ _ => .ok ()⟩ with hp | hp
    · exact hp
    · rw [hm1] at hp
      simp only at hp
      rw [hm2] at hp
      omega

/-! ## Examples -/

theorem pair_of_snd {x : α × β} {b : β} (h : x.2 = b) : x = (x.1, b) := by cases x; cases h; rfl

/-- A request with 1030 bytes of body in three frames, whose fields wait for an
insertion, and whose last frame comes with the end. -/
def srvIn : List (List (Arrival Bytes) × Env Bytes) :=
  [([.bytes [0x01, 0x02, 0xff] false exEnv], exEnv),
   ([.bytes ([0x02, 0x00, 0x44, 0x00] ++ List.replicate 1024 7) false exEnv, .table 1 exEnv], exEnv),
   ([.bytes [0x00, 0x02, 8] false exEnv, .bytes [9, 0x00, 0x04, 1, 2] false exEnv], exEnv),
   ([.bytes [3, 4] true exEnv, .table 2 exEnv], exEnv)]

/-- It is passed on in pieces, each as it arrives. -/
example : ((Rm.init none 0 : Rm Bytes Bytes).serveRun (exCtx false) maxEventData srvIn).2 = none ∧
    ((Rm.init none 0 : Rm Bytes Bytes).serveRun (exCtx false) maxEventData srvIn).1.waiting = none ∧
    ((Rm.init none 0 : Rm Bytes Bytes).serveRun (exCtx false) maxEventData srvIn).1.out.filterMap Up.event =
      [.headers [0xff, 2] false, .data (List.replicate 1024 7) false, .data [8, 9, 1, 2] false, .data [3, 4] true] := by
  decide +kernel

/-- The application then has all of it. -/
example : learned (((Rm.init none 0 : Rm Bytes Bytes).serveRun (exCtx false) maxEventData srvIn).1.out.filterMap Up.event) =
    mains (wholeMessage (exCtx false) ([] ++ (arrived srvIn).avail) (arrived srvIn).fin).1 :=
  C106_all_is_passed_on (exCtx_laws false) (first := none) (head := []) rfl 0 srvIn
    (pair_of_snd (by decide +kernel)) (by decide +kernel)

/-- A client with a buffer of three bytes. -/
example : got ((Rm.init none 0 : Rm Bytes Bytes).serveRun (exCtx true) 3 [([.bytes [0x01, 0x01, 2] false exEnv], exEnv),
      ([.bytes [0x00, 0x07, 1, 2, 3, 4, 5, 6, 7] false exEnv], exEnv), ([.bytes [] true exEnv], exEnv)]).1.out =
    [.headers [2], .byte 1, .byte 2, .byte 3, .byte 4, .byte 5, .byte 6, .byte 7, .fin] :=
  (C106_no_report_is_missing (exCtx_laws true) (first := none) (head := []) rfl 0 (by decide) _
    (pair_of_snd (by decide +kernel)) (by decide +kernel)).trans (by decide +kernel)

/-- The request as the client's application made it. -/
def srvOps : List MsgOp :=
  [.headers [0xff, 2] false false, .send 100, .data [7, 7, 7] 100, .data [8, 9] 100, .close, .send 100]

def srvIn2 : List (List (Arrival Bytes) × Env Bytes) :=
  [([.bytes [0x01, 0x02, 0xff, 0x02, 0x00, 0x03] false exEnv], exEnv), ([.table 1 exEnv], exEnv),
   ([.bytes [7, 7, 7, 0x00] false exEnv, .bytes [0x02, 8, 9] true exEnv], exEnv)]

theorem srv_understood : Understood (exCtx false) false srvOps := by
  intro before block interim ok after h hb
  rcases before with _ | ⟨x0, before⟩
  · simp only [srvOps, List.nil_append, List.cons.injEq, MsgOp.headers.injEq] at h
    obtain ⟨⟨rfl, rfl, rfl⟩, _⟩ := h
    exact ⟨by simp, _, rfl⟩
  · simp only [srvOps, List.cons_append, List.cons.injEq] at h
    obtain ⟨rfl, _⟩ := h
    exact absurd (hb _ _ _ (List.mem_cons_self ..)).1 (by simp)

theorem srv_joined : Joined (SendMsg.run { response := false } srvOps).2.2 [] (arrived srvIn2) :=
  ⟨⟨[], by decide +kernel⟩, fun _ => by decide +kernel⟩

example : learned (((Rm.init none 0 : Rm Bytes Bytes).serveRun (exCtx false) maxEventData srvIn2).1.out.filterMap Up.event) =
    ([.headers [0xff, 2], .byte 7, .byte 7, .byte 7, .byte 8, .byte 9, .fin] : List (Ev Bytes Bytes)) :=
  ((C106_request_arrives (exCtx_laws false) srv_understood (by intro op hop; simp [srvOps] at hop; rcases hop with rfl | rfl | rfl | rfl | rfl | rfl <;> simp [MsgOp.Ok])
    (first := none) (head := []) rfl 0 srvIn2 srv_joined (pair_of_snd (by decide +kernel))).2
      (by decide +kernel) (by decide +kernel)).trans (by decide +kernel)

end Neqo.H3
