import Verif.Streams.Seen

/-! What there is before any frame of the peer was processed. -/

namespace Neqo.Strs

open Neqo.Flow (SFc RFc)
open Neqo.Sched (Writer Sched imFind)

variable {σ γ : Type}

/-- A receive stream on which nothing arrived. -/
def Untouched : RecvS.State → Prop
  | .recv fc buf => fc.consumed = 0 ∧ fc.retired = 0 ∧ buf = {}
  | .abortReading fc fsr _ _ _ _ => fc.consumed = 0 ∧ fc.retired = 0 ∧ fsr = false
  | .waitForReset .. => True
  | _ => False

theorem autoTune_keeps {r r' : RFc} {now rtt w : Nat} (h : r.autoTune now rtt w = .ok r') :
    r'.consumed = r.consumed ∧ r'.retired = r.retired := by
  unfold RFc.autoTune at h
  split at h
  · cases h; exact ⟨rfl, rfl⟩
  · split at h
    · cases h; exact ⟨rfl, rfl⟩
    · dsimp only at h
      split at h
      · cases h
      · split at h
        · cases h; exact ⟨rfl, rfl⟩
        · split at h <;> (cases h; exact ⟨rfl, rfl⟩)

theorem rwrite_keeps {r r' : RFc} {fits : Bool} {now rtt w : Nat} {o : Option Nat} (h : r.write fits now rtt w = .ok (r', o)) :
    r'.consumed = r.consumed ∧ r'.retired = r.retired := by
  unfold RFc.write at h
  split at h
  · split at h
    · cases h
    · rename_i hh
      have hk := autoTune_keeps hh
      split at h <;> (cases h; exact hk)
  · cases h; exact ⟨rfl, rfl⟩

theorem read_empty (n : Nat) : (({} : Recv.Rx).read n) = .ok ({}, []) := by
  rfl

/-- Not a frame of the peer. -/
def ours : RecvS.Op → Prop
  | .frame .. => False
  | .reset .. => False
  | _ => True

/-- Without frames nothing happens to flow control. -/
theorem recvStep_untouched {st st' : RecvS.State} {ses ses' : RFc} {op : RecvS.Op} {b : Bool} (hu : Untouched st)
    (hf : ours op)
    (h : recvStep st ses op = .ok (st', ses', b)) : Untouched st' ∧ ses' = ses ∧ b = false := by
  unfold recvStep at h
  cases op with
  | frame => cases hf
  | reset => cases hf
  | read n =>
    dsimp only at h
    cases st with
    | recv fc buf =>
      obtain ⟨h1, h2, rfl⟩ := hu
      have : (RecvS.State.recv fc {}).read ses n = .ok (.recv fc {}, ses, [], false, []) := by
        unfold RecvS.State.read
        dsimp only
        rw [read_empty]
        rfl
      rw [this] at h
      cases h
      exact ⟨⟨h1, h2, rfl⟩, rfl, rfl⟩
    | abortReading => cases h; exact ⟨hu, rfl, rfl⟩
    | waitForReset => cases h; exact ⟨hu, rfl, rfl⟩
    | _ => cases hu
  | stopSending err =>
    dsimp only at h
    cases st with
    | recv fc buf =>
      obtain ⟨h1, h2, rfl⟩ := hu
      have : (RecvS.State.recv fc {}).stopSending ses err = .ok (.abortReading fc false true err 0 0, ses, false, []) := by
        unfold RecvS.State.stopSending RecvS.retireData
        dsimp only
        rw [h1, h2]
        rfl
      rw [this] at h
      cases h
      exact ⟨⟨h1, h2, rfl⟩, rfl, rfl⟩
    | abortReading => cases h; exact ⟨hu, rfl, rfl⟩
    | waitForReset => cases h; exact ⟨hu, rfl, rfl⟩
    | _ => cases hu
  | write fits now rtt =>
    dsimp only at h
    cases st with
    | recv fc buf =>
      obtain ⟨h1, h2, rfl⟩ := hu
      unfold RecvS.State.writeFrame at h
      dsimp only at h
      cases hw : fc.write fits now rtt Flow.maxLocalMaxStreamData with
      | error e => rw [hw] at h; cases h
      | ok r =>
        rw [hw] at h
        cases h
        obtain ⟨e1, e2⟩ := rwrite_keeps hw
        exact ⟨⟨e1.trans h1, e2.trans h2, rfl⟩, rfl, rfl⟩
    | abortReading =>
      unfold RecvS.State.writeFrame at h
      dsimp only at h
      split at h
      · cases h
      · rename_i hh
        split at hh <;> (cases hh; cases h; exact ⟨hu, rfl, rfl⟩)
    | waitForReset => cases h; exact ⟨hu, rfl, rfl⟩
    | _ => cases hu
  | stopSendingAcked =>
    cases h
    cases st with
    | recv fc buf => exact ⟨hu, rfl, rfl⟩
    | abortReading fc fsr a b c d =>
      obtain ⟨h1, h2, rfl⟩ := hu
      exact ⟨trivial, rfl, rfl⟩
    | waitForReset => exact ⟨hu, rfl, rfl⟩
    | _ => cases hu
  | stopSendingLost =>
    cases h
    cases st with
    | recv fc buf => exact ⟨hu, rfl, rfl⟩
    | abortReading => exact ⟨hu, rfl, rfl⟩
    | waitForReset => exact ⟨hu, rfl, rfl⟩
    | _ => cases hu
  | maxStreamDataLost l =>
    cases h
    cases st with
    | recv fc buf =>
      obtain ⟨h1, h2, rfl⟩ := hu
      refine ⟨?_, rfl, rfl⟩
      unfold RecvS.State.maxStreamDataLost RFc.frameLost
      dsimp only
      split <;> exact ⟨h1, h2, rfl⟩
    | abortReading => exact ⟨hu, rfl, rfl⟩
    | waitForReset => exact ⟨hu, rfl, rfl⟩
    | _ => cases hu
  | peerBlocked =>
    cases h
    cases st with
    | recv fc buf =>
      obtain ⟨h1, h2, rfl⟩ := hu
      refine ⟨?_, rfl, rfl⟩
      unfold RecvS.State.sendFlowcUpdate RFc.sendFlowcUpdate
      dsimp only
      split <;> exact ⟨h1, h2, rfl⟩
    | abortReading => exact ⟨hu, rfl, rfl⟩
    | waitForReset => exact ⟨hu, rfl, rfl⟩
    | _ => cases hu
  | setWindow w =>
    cases h
    cases st with
    | recv fc buf =>
      obtain ⟨h1, h2, rfl⟩ := hu
      exact ⟨⟨h1, h2, rfl⟩, rfl, rfl⟩
    | abortReading => exact ⟨hu, rfl, rfl⟩
    | waitForReset => exact ⟨hu, rfl, rfl⟩
    | _ => cases hu

theorem untouched_not_ended {st : RecvS.State} (h : Untouched st) : st.isEnded = false := by
  cases st <;> first | rfl | cases h

/-- Nothing of the peer has been processed. -/
structure Fresh (c : Cfg) (r : Role) (s : State σ) (h : History σ γ) : Prop where
  ses : s.ses = RFc.new c.maxData
  rb : s.rb = .new .bidi c.maxBidi r
  ru : s.ru = .new .uni c.maxUni r
  ended : s.recvEnded = false
  recv : ∀ e ∈ s.recv, Untouched e.2
  sent : ∀ e ∈ h, (∀ m, Out.maxData m ∉ e.2) ∧ ∀ t m, Out.maxStreams t m ∉ e.2

theorem new_streams (t : SType) (m : Nat) (r : Role) (fits : Bool) :
    (Remote.new t m r).fc.writeStreams fits = ((Remote.new t m r).fc, none) := rfl

theorem Fresh.keep {c : Cfg} {r : Role} {s s' : State σ} {h : History σ γ} (k : Fresh c r s h) (op : Op σ γ) {os : List Out}
    (h1 : s'.ses = s.ses) (h2 : s'.rb = s.rb) (h3 : s'.ru = s.ru) (h4 : s'.recvEnded = s.recvEnded)
    (h5 : ∀ e ∈ s'.recv, Untouched e.2) (h6 : (∀ m, Out.maxData m ∉ os) ∧ ∀ t m, Out.maxStreams t m ∉ os) :
    Fresh c r s' ((op, os) :: h) :=
  ⟨h1.trans k.ses, h2.trans k.rb, h3.trans k.ru, h4.trans k.ended, h5, fun e he => by
    rcases List.mem_cons.mp he with rfl | he
    · exact h6
    · exact k.sent e he⟩

theorem fresh_step {K : Kind σ γ} {s s' : State σ} {n : SType → Nat} {c : Cfg} {r : Role} {h : History σ γ} (hi : Inv s n)
    (k : Fresh c r s h) (op : Op σ γ) (ha : op.Allowed s h) (hn : ∀ f, op ≠ .frame f) {os : List Out}
    (he : exec K s op = .ok (s', os)) : Fresh c r s' ((op, os) :: h) := by
  have hnil : (∀ m, Out.maxData m ∉ ([] : List Out)) ∧ ∀ t m, Out.maxStreams t m ∉ ([] : List Out) :=
    ⟨(fun m hm => by cases hm), (fun t m hm => by cases hm)⟩
  cases op with
  | frame f => exact absurd rfl (hn f)
  | create t =>
    have he : create K s t = .ok (s', os) := he
    unfold create at he
    cases ht : takeLocal s.role t (s.loc t) with
    | error e => rw [ht] at he; cases he
    | ok x =>
      obtain ⟨l, o⟩ := x
      rw [ht] at he
      cases o with
      | none =>
        obtain ⟨rfl, rfl⟩ := Prod.mk.inj (Except.ok.inj he)
        have hno : (∀ m, Out.maxData m ∉ [Out.refused t]) ∧ ∀ t' m, Out.maxStreams t' m ∉ [Out.refused t] :=
          ⟨(fun m hm => by simp at hm), (fun t m hm => by simp at hm)⟩
        cases t <;> exact k.keep _ rfl rfl rfl rfl k.recv hno
      | some id =>
        dsimp only at he
        cases hp : s.peer with
        | none => rw [hp] at he; cases he
        | some p =>
          rw [hp] at he
          dsimp only at he
          cases t with
          | uni =>
            obtain ⟨rfl, rfl⟩ := Prod.mk.inj (Except.ok.inj he)
            exact k.keep _ rfl rfl rfl rfl k.recv ⟨(fun m hm => by simp at hm), (fun t m hm => by simp at hm)⟩
          | bidi =>
            obtain ⟨rfl, rfl⟩ := Prod.mk.inj (Except.ok.inj he)
            refine k.keep _ rfl rfl rfl rfl ?_ ⟨(fun m hm => by simp at hm), (fun t m hm => by simp at hm)⟩
            intro e hee
            have hf := (hi.srt.insert id (.new s.cfg.bidiLocal)).find_eq_some.mpr hee
            have hf : SMap.find (SMap.insert s.recv id (.new s.cfg.bidiLocal)) e.1 = some e.2 := hf
            rw [hi.srt.find_insert] at hf
            split at hf
            · rw [← Option.some.inj hf]; exact ⟨rfl, rfl, rfl⟩
            · exact k.recv _ (hi.srt.find_eq_some.mp hf)
  | recv id op =>
    have he : (s.onRecv id op).map (·, []) = .ok (s', os) := he
    cases ho : s.onRecv id op with
    | error e => rw [ho] at he; cases he
    | ok s2 =>
      rw [ho] at he
      obtain ⟨rfl, rfl⟩ := Prod.mk.inj (Except.ok.inj he)
      unfold State.onRecv at ho
      cases hf : SMap.find s.recv id with
      | none =>
        rw [hf] at ho
        obtain rfl := Except.ok.inj ho
        exact k.keep _ rfl rfl rfl rfl k.recv hnil
      | some st =>
        rw [hf] at ho
        dsimp only at ho
        cases hr : recvStep st s.ses op with
        | error e => rw [hr] at ho; cases ho
        | ok x =>
          obtain ⟨st', ses', b⟩ := x
          rw [hr] at ho
          obtain rfl := Except.ok.inj ho
          have hal : ours op := by
            cases op <;> first | trivial | exact ha
          obtain ⟨h1, h2, h3⟩ := recvStep_untouched (k.recv _ (hi.srt.find_eq_some.mp hf)) hal hr
          refine k.keep _ h2 rfl rfl (by rw [h3]; exact Bool.or_false _) ?_ hnil
          intro e hee
          have hfe := (hi.srt.modify id (fun _ => st')).find_eq_some.mpr hee
          have hfe : SMap.find (SMap.modify s.recv id (fun _ => st')) e.1 = some e.2 := hfe
          rw [hi.srt.find_modify] at hfe
          split at hfe
          · rename_i hh
            rw [hh, hf] at hfe
            rw [← Option.some.inj hfe]; exact h1
          · exact k.recv _ (hi.srt.find_eq_some.mp hfe)
  | send op =>
    unfold exec at he
    dsimp only at he
    split at he
    · cases he
    · obtain ⟨rfl, rfl⟩ := Prod.mk.inj (Except.ok.inj he)
      exact k.keep _ rfl rfl rfl rfl k.recv hnil
    · obtain ⟨rfl, rfl⟩ := Prod.mk.inj (Except.ok.inj he)
      exact k.keep _ rfl rfl rfl rfl k.recv hnil
  | spend m =>
    unfold exec at he
    dsimp only at he
    cases hc : s.conn.consume m with
    | error e => rw [hc] at he; cases he
    | ok c =>
      rw [hc] at he
      obtain ⟨rfl, rfl⟩ := Prod.mk.inj (Except.ok.inj he)
      exact k.keep _ rfl rfl rfl rfl k.recv hnil
  | writeMaxData fits now rtt =>
    unfold exec at he
    dsimp only at he
    rw [k.ses] at he
    obtain ⟨rfl, rfl⟩ := Prod.mk.inj (Except.ok.inj he)
    exact k.keep _ k.ses.symm rfl rfl rfl k.recv hnil
  | maxDataLost m =>
    obtain ⟨e, hee, hm⟩ := ha
    exact absurd hm ((k.sent e hee).1 m)
  | writeMaxStreams t fits =>
    obtain ⟨rfl, rfl⟩ := Prod.mk.inj (Except.ok.inj he)
    cases t with
    | bidi =>
      have h0 : s.rb.fc.writeStreams fits = (s.rb.fc, none) := by rw [k.rb]; rfl
      dsimp only [State.remote]
      rw [h0]
      exact k.keep _ rfl rfl rfl rfl k.recv hnil
    | uni =>
      have h0 : s.ru.fc.writeStreams fits = (s.ru.fc, none) := by rw [k.ru]; rfl
      dsimp only [State.remote]
      rw [h0]
      exact k.keep _ rfl rfl rfl rfl k.recv hnil
  | maxStreamsLost t m =>
    obtain ⟨e, hee, hm⟩ := ha
    exact absurd hm ((k.sent e hee).2 t m)
  | writeBlocked t fits =>
    obtain ⟨rfl, rfl⟩ := Prod.mk.inj (Except.ok.inj he)
    have hno : (∀ m, Out.maxData m ∉ ((s.loc t).write fits).2.toList.map (Out.blocked t)) ∧
        ∀ t' m, Out.maxStreams t' m ∉ ((s.loc t).write fits).2.toList.map (Out.blocked t) :=
      ⟨(fun m hm => by simp at hm), (fun t m hm => by simp at hm)⟩
    cases t <;> exact k.keep _ rfl rfl rfl rfl k.recv hno
  | blockedLost t l =>
    obtain ⟨rfl, rfl⟩ := Prod.mk.inj (Except.ok.inj he)
    cases t <;> exact k.keep _ rfl rfl rfl rfl k.recv hnil
  | cleanup =>
    have he : (cleanup K s).map (·, []) = .ok (s', os) := he
    unfold cleanup at he
    cases hr : s.send.removeEnded K.w with
    | error e => rw [hr] at he; cases he
    | ok x =>
      obtain ⟨send, b⟩ := x
      rw [hr] at he
      dsimp only at he
      split at he
      · obtain ⟨rfl, rfl⟩ := Prod.mk.inj (Except.ok.inj he)
        exact k.keep _ rfl rfl rfl rfl k.recv hnil
      · obtain ⟨rfl, rfl⟩ := Prod.mk.inj (Except.ok.inj he)
        have hd : ∀ e ∈ s.recv, dead send e = false := by
          intro e hee
          unfold dead
          rw [untouched_not_ended (k.recv e hee)]
          rfl
        have hg : s.recv.filter (fun e => dead send e && isRemote s.role e.1) = [] := by
          rw [List.filter_eq_nil_iff]
          intro e hee
          rw [hd e hee]
          simp
        refine k.keep _ rfl ?_ ?_ k.ended.symm (fun e hee => k.recv e (List.mem_filter.mp hee).1) hnil
        · dsimp only
          rw [hg]
          rfl
        · dsimp only
          rw [hg]
          rfl
  | limits p =>
    have he : setInitialLimits K s p = .ok (s', os) := he
    unfold setInitialLimits at he
    split at he
    · cases he
    · obtain ⟨rfl, rfl⟩ := Prod.mk.inj (Except.ok.inj he)
      refine k.keep _ rfl rfl rfl rfl k.recv ⟨fun m hm => ?_, fun t m hm => ?_⟩
      all_goals
        rcases List.mem_append.mp hm with hm | hm
        all_goals
          split at hm
          · simp at hm
          · cases hm
  | rejected =>
    obtain ⟨rfl, rfl⟩ := Prod.mk.inj (Except.ok.inj he)
    exact k.keep _ rfl rfl rfl k.ended.symm (fun e hee => by cases hee) hnil

theorem reach_fresh {K : Kind σ γ} (hK : KindOk K) {q : Prop} {role : Role} {cfg : Cfg} (hc : cfg.Ok) {s : State σ}
    {h : History σ γ} (hr : Reach K q role cfg s h) (hn : ∀ e ∈ h, ∀ f, e.1 ≠ .frame f) : Fresh cfg role s h := by
  induction hr with
  | init => exact ⟨rfl, rfl, rfl, rfl, (fun e he => by cases he), (fun e he => by cases he)⟩
  | step op hr ha hq he ih =>
    obtain ⟨n, hl⟩ := reach_link hK hc hr
    exact fresh_step hl.inv (ih (fun e hee => hn e (List.mem_cons_of_mem _ hee))) op ha (hn _ List.mem_cons_self) he

end Neqo.Strs
