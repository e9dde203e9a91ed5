import Verif.Streams.Steps

/-! Streams that have ended are noticed. -/

namespace Neqo.Strs

open Neqo.Flow (SFc RFc)
open Neqo.Sched (Writer Sched imFind)
open Neqo.RecvS (State.isEnded)

variable {σ γ : Type}

theorem consumeData_ended {st st' : RecvS.State} {ses ses' : RFc} {c : Nat} {fin : Bool}
    (h : st.consumeData ses c fin = .ok (st', ses')) : st'.isEnded = st.isEnded := by
  unfold RecvS.State.consumeData at h
  cases st <;> simp only [Except.bind_eq_ok, Except.pure_eq_ok] at h
  all_goals first
    | (obtain ⟨⟨_, _⟩, _, h⟩ := h; cases h; rfl)
    | (cases h; rfl)

theorem deliver_ended {st st' : RecvS.State} {fin : Bool} {off : Nat} {d : Codec.Bytes}
    (h : st.deliver fin off d = .ok st') : st'.isEnded = st.isEnded := by
  unfold RecvS.State.deliver at h
  cases st with
  | recv fc buf =>
    simp only [Except.bind_eq_ok] at h
    obtain ⟨b, _, h⟩ := h
    split at h
    · split at h <;> (cases h; rfl)
    · cases h; rfl
  | sizeKnown fc buf =>
    simp only [Except.bind_eq_ok] at h
    obtain ⟨b, _, h⟩ := h
    split at h <;> (cases h; rfl)
  | sizeKnownAt fc buf e fs rel =>
    simp only at h
    split at h
    · simp only [Except.bind_eq_ok] at h
      obtain ⟨b, _, h⟩ := h
      cases h; rfl
    · cases h; rfl
  | _ => cases h; rfl

theorem finishReset_noted {st st' : RecvS.State} {ses ses' : RFc} {fs err a c : Nat} {b : Bool} {evs : List RecvS.Ev}
    (h : st.finishReset ses fs err a c = .ok (st', ses', b, evs)) : b = true := by
  unfold RecvS.State.finishReset at h
  split at h
  · split at h
    · cases h
    · simp only [Except.bind_eq_ok] at h
      obtain ⟨_, _, h⟩ := h
      cases h; rfl
  · split at h
    · cases h
    · simp only [Except.bind_eq_ok] at h
      obtain ⟨_, _, h⟩ := h
      cases h; rfl
  · split at h
    · cases h
    · simp only [Except.bind_eq_ok] at h
      obtain ⟨_, _, h⟩ := h
      cases h; rfl
  · cases h; rfl

theorem completeIfDrained_noted {st st' : RecvS.State} {ses ses' : RFc} {b : Bool} {evs : List RecvS.Ev}
    (h : st.completeIfDrained ses = .ok (st', ses', b, evs)) (he : st'.isEnded = true) :
    st.isEnded = true ∨ b = true := by
  unfold RecvS.State.completeIfDrained at h
  split at h
  · split at h
    · cases h; cases he
    · exact Or.inr (finishReset_noted h)
  · cases h; exact Or.inl he

theorem resetMatch_noted {st st' : RecvS.State} {ses ses' : RFc} {err fs rel : Nat} {b : Bool} {evs : List RecvS.Ev}
    (h : st.resetMatch ses err fs rel = .ok (st', ses', b, evs)) (he : st'.isEnded = true) :
    st.isEnded = true ∨ b = true := by
  unfold RecvS.State.resetMatch at h
  cases st with
  | recv fc buf =>
    simp only [Except.bind_eq_ok] at h
    obtain ⟨_, _, h⟩ := h
    rcases completeIfDrained_noted h he with h1 | h1
    · cases h1
    · exact Or.inr h1
  | sizeKnown fc buf =>
    simp only [Except.bind_eq_ok] at h
    obtain ⟨_, _, h⟩ := h
    rcases completeIfDrained_noted h he with h1 | h1
    · cases h1
    · exact Or.inr h1
  | sizeKnownAt fc buf e f stored =>
    simp only at h
    split at h
    · cases h
    · split at h
      · simp only [Except.bind_eq_ok] at h
        obtain ⟨_, _, h⟩ := h
        rcases completeIfDrained_noted h he with h1 | h1
        · cases h1
        · exact Or.inr h1
      · cases h; cases he
  | abortReading => exact Or.inr (finishReset_noted h)
  | waitForReset => exact Or.inr (finishReset_noted h)
  | _ => cases h; exact Or.inl he

/-- The code notes every end of a receive stream. -/
theorem recvStep_noted {st st' : RecvS.State} {ses ses' : RFc} {op : RecvS.Op} {b : Bool}
    (h : recvStep st ses op = .ok (st', ses', b)) (he : st'.isEnded = true) : st.isEnded = true ∨ b = true := by
  unfold recvStep at h
  cases op with
  | frame fin off d =>
    dsimp only at h
    cases hh : st.inboundFrame ses fin off d with
    | error e => rw [hh] at h; cases h
    | ok r =>
      rw [hh] at h
      cases h
      unfold RecvS.State.inboundFrame at hh
      simp only [Except.bind_eq_ok, Except.pure_eq_ok] at hh
      obtain ⟨⟨s1, f1⟩, h1, s2, h2, hh⟩ := hh
      subst hh
      left
      rw [← consumeData_ended h1, ← deliver_ended h2]
      exact he
  | reset err fs rel =>
    dsimp only at h
    cases hh : st.reset ses err fs rel with
    | error e => rw [hh] at h; cases h
    | ok r =>
      rw [hh] at h
      cases h
      unfold RecvS.State.reset at hh
      split at hh
      · cases hh
      · simp only [Except.bind_eq_ok] at hh
        obtain ⟨⟨s1, f1⟩, h1, hh⟩ := hh
        rcases resetMatch_noted hh he with h2 | h2
        · left
          rw [← consumeData_ended h1]
          exact h2
        · exact Or.inr h2
  | read n =>
    dsimp only at h
    cases hh : st.read ses n with
    | error e =>
      rw [hh] at h
      cases e <;> cases h
      exact Or.inl he
    | ok r => rw [hh] at h; cases h; exact Or.inr he
  | stopSending err =>
    dsimp only at h
    cases hh : st.stopSending ses err with
    | error e => rw [hh] at h; cases h
    | ok r =>
      rw [hh] at h
      cases h
      unfold RecvS.State.stopSending at hh
      cases st with
      | recv fc buf =>
        simp only [Except.bind_eq_ok] at hh
        obtain ⟨_, _, hh⟩ := hh
        cases hh; cases he
      | sizeKnown fc buf =>
        simp only [Except.bind_eq_ok] at hh
        obtain ⟨_, _, hh⟩ := hh
        cases hh; cases he
      | dataRecvd fc buf =>
        simp only [Except.bind_eq_ok] at hh
        obtain ⟨_, _, hh⟩ := hh
        cases hh; exact Or.inr rfl
      | sizeKnownAt fc buf e fs rel => exact Or.inr (finishReset_noted hh)
      | _ => cases hh; exact Or.inl he
  | write fits now rtt =>
    dsimp only at h
    cases hh : st.writeFrame fits now rtt with
    | error e => rw [hh] at h; cases h
    | ok r =>
      rw [hh] at h
      cases h
      unfold RecvS.State.writeFrame at hh
      cases st with
      | recv fc buf =>
        simp only [Except.bind_eq_ok] at hh
        obtain ⟨_, _, hh⟩ := hh
        cases hh; cases he
      | abortReading =>
        simp only at hh
        split at hh <;> (cases hh; cases he)
      | _ => cases hh; exact Or.inl he
  | stopSendingAcked =>
    cases h
    cases st with
    | abortReading fc fsr a b c d =>
      cases fsr
      · cases he
      · exact Or.inr rfl
    | _ => exact Or.inl he
  | stopSendingLost =>
    cases h
    cases st <;> first | exact Or.inl he | cases he
  | maxStreamDataLost l =>
    cases h
    cases st <;> first | exact Or.inl he | cases he
  | peerBlocked =>
    cases h
    cases st <;> first | exact Or.inl he | cases he
  | setWindow w =>
    cases h
    cases st <;> first | exact Or.inl he | cases he

/-- Streams that have ended are noted for `cleanup`. -/
structure Seen (K : Kind σ γ) (s : State σ) : Prop where
  send : Sched.EndedSeen K.w s.send
  recv : ∀ id st, SMap.find s.recv id = some st → st.isEnded = true →
    (isBidi id = false ∨ imFind s.send.map id = none) → s.recvEnded = true

theorem Seen.grown {K : Kind σ γ} {s s' : State σ} (h : Seen K s) (hg : Grown K s s')
    (h1 : s'.recvEnded = s.recvEnded) (h2 : s'.send.hasEnded = s.send.hasEnded) : Seen K s' := by
  constructor
  · intro id x hx hxe
    rcases hg.sendNew id x hx with h3 | ⟨_, h3⟩
    · rw [h2]; exact h.send id x h3 hxe
    · rw [hxe] at h3; cases h3
  · intro id st hst hse hd
    rw [h1]
    rcases hg.recvNew id st hst with h3 | ⟨_, m, h3⟩
    · refine h.recv id st h3 hse (hd.imp (fun hb => hb) (fun hn => ?_))
      cases hx : imFind s.send.map id with
      | none => rfl
      | some x => rw [hg.send id x hx] at hn; cases hn
    · rw [h3] at hse; cases hse

theorem Seen.onRecv {K : Kind σ γ} {s s' : State σ} {n : SType → Nat} (hi : Inv s n) (h : Seen K s) {id : Nat}
    {op : RecvS.Op} (hs : s.onRecv id op = .ok s') : Seen K s' := by
  unfold State.onRecv at hs
  cases hf : SMap.find s.recv id with
  | none =>
    rw [hf] at hs
    obtain rfl := Except.ok.inj hs
    exact h
  | some st =>
    rw [hf] at hs
    dsimp only at hs
    cases hr : recvStep st s.ses op with
    | error e => rw [hr] at hs; cases hs
    | ok r =>
      obtain ⟨st', ses', b⟩ := r
      rw [hr] at hs
      obtain rfl := Except.ok.inj hs
      refine ⟨h.send, fun j stj hj hje hd => ?_⟩
      dsimp only at hj hd ⊢
      rw [hi.srt.find_modify] at hj
      by_cases hji : j = id
      · rw [if_pos hji, hji, hf] at hj
        obtain rfl := Option.some.inj hj
        rcases recvStep_noted hr hje with h1 | h1
        · rw [hji] at hd
          rw [h.recv id st hf h1 hd]; rfl
        · rw [h1, Bool.or_true]
      · rw [if_neg hji] at hj
        rw [h.recv j stj hj hje hd]; rfl

theorem imFind_keys {α : Type} {m m' : List (Nat × α)} (h : m'.map (·.1) = m.map (·.1)) (id : Nat) :
    imFind m' id = none ↔ imFind m id = none := by
  rw [Sched.imFind_eq_none, Sched.imFind_eq_none, h]

/-- The send streams change, but not their IDs. -/
theorem Seen.sends {K : Kind σ γ} {s s' : State σ} (h : Seen K s) (h1 : Sched.EndedSeen K.w s'.send)
    (h2 : s'.send.map.map (·.1) = s.send.map.map (·.1)) (h3 : s'.recv = s.recv) (h4 : s'.recvEnded = s.recvEnded) :
    Seen K s' := by
  refine ⟨h1, fun id st hst hse hd => ?_⟩
  rw [h4]
  rw [h3] at hst
  exact h.recv id st hst hse (hd.imp (fun hb => hb) (imFind_keys h2 id).mp)

theorem touch_seen {w : Writer σ γ} {s : Sched σ} (h : Sched.EndedSeen w s) {id : Nat} {f : σ → σ}
    (hf : ∀ x, imFind s.map id = some x → w.ended (f x.st) = true → w.ended x.st = true) :
    Sched.EndedSeen w (s.touch id f) := by
  unfold Sched.Sched.touch
  cases hx : imFind s.map id with
  | none => exact h
  | some x => exact h.set hx rfl (fun hh => hh) (fun hh => h id x hx (hf x hx hh))

theorem frameRecv_seen {K : Kind σ γ} (hK : KindOk K) {s s' : State σ} {n : SType → Nat} (h : Inv s n) (hs : Seen K s)
    {id : Nat} {op : RecvS.Op} (hp : s.peer.isSome = true) {os : List Out}
    (he : frameRecv K s id op = .ok (s', os)) : Seen K s' := by
  unfold frameRecv at he
  cases hd : isSendOnly s.role id with
  | true => rw [hd] at he; cases he
  | false =>
    rw [hd, if_neg (by decide)] at he
    rcases obtain_spec hK h id hp with ⟨s1, os1, n1, h1, h2, h3, h4, _, _⟩ | h1 | h1
    · rw [h1] at he
      dsimp only at he
      have hs1 := hs.grown h4 h3.ended h3.sended
      cases ho : s1.onRecv id op with
      | error e => rw [ho] at he; cases he
      | ok s2 =>
        rw [ho] at he
        obtain ⟨rfl, _⟩ := Prod.mk.inj (Except.ok.inj he)
        exact hs1.onRecv h2 ho
    · rw [h1] at he; cases he
    · rw [h1] at he; cases he

theorem frameSend_seen {K : Kind σ γ} (hK : KindOk K) {s s' : State σ} {n : SType → Nat} (h : Inv s n) (hs : Seen K s)
    {id : Nat} {g : σ → σ} (hp : s.peer.isSome = true) {os : List Out}
    (hg : ∀ s1 os1 x, obtainStream K s id = .ok (s1, os1) → imFind s1.send.map id = some x →
      K.w.ended (g x.st) = true → K.w.ended x.st = true)
    (he : frameSend K s id g = .ok (s', os)) : Seen K s' := by
  unfold frameSend at he
  cases hd : isRecvOnly s.role id with
  | true => rw [hd] at he; cases he
  | false =>
    rw [hd, if_neg (by decide)] at he
    rcases obtain_spec hK h id hp with ⟨s1, os1, n1, h1, h2, h3, h4, _, _⟩ | h1 | h1
    · rw [h1] at he
      obtain ⟨rfl, _⟩ := Prod.mk.inj (Except.ok.inj he)
      have hs1 := hs.grown h4 h3.ended h3.sended
      exact hs1.sends (touch_seen hs1.send (hg s1 os1 · h1)) (touch_keys _ _ _) rfl rfl
    · rw [h1] at he; cases he
    · rw [h1] at he; cases he

theorem Seen.same {K : Kind σ γ} {s s' : State σ} (h : Seen K s) (h1 : s'.send = s.send) (h2 : s'.recv = s.recv)
    (h3 : s'.recvEnded = s.recvEnded) : Seen K s' :=
  h.sends (by rw [h1]; exact h.send) (by rw [h1]) h2 h3

theorem setLoc_seen {K : Kind σ γ} {s : State σ} (h : Seen K s) (l : SFc) (t : SType) : Seen K (s.setLoc l t) := by
  cases t <;> exact h.same rfl rfl rfl

theorem setRemote_seen {K : Kind σ γ} {s : State σ} (h : Seen K s) (r : Remote) (t : SType) : Seen K (s.setRemote r t) := by
  cases t <;> exact h.same rfl rfl rfl

/-- What is left after `cleanup`. -/
theorem cleanup_result {K : Kind σ γ} {s s' : State σ} {n : SType → Nat} (hi : Inv s n) (h : Seen K s)
    (hs : cleanup K s = .ok s') :
    (∀ e ∈ s'.send.map, K.w.ended e.2.st = false) ∧ s'.recvEnded = false ∧
    (∀ e ∈ s'.recv, e.2.isEnded = true → isBidi e.1 = true ∧ e.1 ∈ s'.send.map.map (·.1)) ∧
    (∀ e ∈ s.send.map, K.w.ended e.2.st = false → e ∈ s'.send.map) ∧
    (∀ e ∈ s.recv, e.2.isEnded = false → e ∈ s'.recv) ∧
    (∀ e ∈ s'.send.map, e ∈ s.send.map) ∧ (∀ e ∈ s'.recv, e ∈ s.recv) ∧
    (∀ e ∈ s.recv, isBidi e.1 = true → e.1 ∈ s'.send.map.map (·.1) → e ∈ s'.recv) := by
  obtain ⟨send, b, h1, h2, h3, h4⟩ := Sched.removeEnded_spec K.w hi.sok
  unfold cleanup at hs
  rw [h1] at hs
  dsimp only at hs
  have hnone : s.send.hasEnded = false → ∀ e ∈ s.send.map, K.w.ended e.2.st = false := by
    intro hE e he
    cases hh : K.w.ended e.2.st with
    | false => rfl
    | true =>
      have := h.send e.1 e.2 (hi.sok.keys.find he) hh
      rw [hE] at this; cases this
  have hsend : (∀ e ∈ send.map, K.w.ended e.2.st = false) ∧ (∀ e ∈ s.send.map, K.w.ended e.2.st = false → e ∈ send.map) ∧
      (∀ e ∈ send.map, e ∈ s.send.map) := by
    cases hE : s.send.hasEnded with
    | false =>
      rw [(h3 hE).1]
      exact ⟨hnone hE, fun e he _ => he, fun e he => he⟩
    | true =>
      rw [(h4 hE).1]
      refine ⟨fun e he => ?_, fun e he hh => ?_, fun e he => (List.mem_filter.mp he).1⟩
      · have := (List.mem_filter.mp he).2
        simpa using this
      · exact List.mem_filter.mpr ⟨he, by rw [hh]; rfl⟩
  by_cases hf : (!(s.recvEnded || b)) = true
  · rw [if_pos hf] at hs
    obtain rfl := Except.ok.inj hs
    have hre : s.recvEnded = false := by
      cases hh : s.recvEnded with
      | false => rfl
      | true => rw [hh] at hf; cases hf
    have hb : b = false := by
      cases b
      · rfl
      · rw [hre] at hf; cases hf
    have hsame : send.map = s.send.map := by
      obtain ⟨s2, b2, k1, _, _, k4⟩ := removeEnded_keeps (w := K.w) hi.sok
      rw [h1] at k1
      obtain ⟨rfl, rfl⟩ := Prod.mk.inj (Except.ok.inj k1)
      exact k4 hb
    refine ⟨hsend.1, hre, fun e he hee => ?_, hsend.2.1, fun e he _ => he, hsend.2.2, fun e he => he,
      fun e he _ _ => he⟩
    dsimp only
    rw [hsame]
    have hfe : SMap.find s.recv e.1 = some e.2 := hi.srt.find_eq_some.mpr he
    have hno : ¬ (isBidi e.1 = false ∨ imFind s.send.map e.1 = none) := by
      intro hd
      have := h.recv e.1 e.2 hfe hee hd
      rw [hre] at this; cases this
    constructor
    · cases hb : isBidi e.1 with
      | true => rfl
      | false => exact absurd (Or.inl hb) hno
    · rw [← Sched.imFind_isSome]
      cases hx : imFind s.send.map e.1 with
      | some x => rfl
      | none => exact absurd (Or.inr hx) hno
  · rw [if_neg hf] at hs
    obtain rfl := Except.ok.inj hs
    refine ⟨hsend.1, rfl, fun e he hee => ?_, hsend.2.1, fun e he hee => ?_, hsend.2.2, fun e he => (List.mem_filter.mp he).1,
      fun e he hb hk => List.mem_filter.mpr ⟨he, ?_⟩⟩
    · have hd := (List.mem_filter.mp he).2
      unfold dead at hd
      rw [hee] at hd
      dsimp only
      rw [← Sched.imFind_isSome]
      cases hb : isBidi e.1 <;> rw [hb] at hd
      · cases hd
      · refine ⟨rfl, ?_⟩
        cases hx : imFind send.map e.1 with
        | some x => rfl
        | none => rw [hx] at hd; cases hd
    · refine List.mem_filter.mpr ⟨he, ?_⟩
      unfold dead
      rw [hee]
      rfl
    · dsimp only at hk
      rw [← Sched.imFind_isSome] at hk
      unfold dead
      rw [hb]
      cases hx : imFind send.map e.1 with
      | some x => cases e.2.isEnded <;> rfl
      | none => rw [hx] at hk; cases hk

theorem exec_seen {K : Kind σ γ} (hK : KindOk K) {s s' : State σ} {n : SType → Nat} {hist : History σ γ} (h : Inv s n)
    (hs : Seen K s) (op : Op σ γ) (ha : op.Allowed s hist) (hn : op.Noted K s) {os : List Out}
    (he : exec K s op = .ok (s', os)) : Seen K s' := by
  cases op with
  | frame f =>
    have ha : s.peer.isSome = true := ha
    have he : inputFrame K s f = .ok (s', os) := he
    unfold inputFrame at he
    cases f with
    | resetStream id err final => exact frameRecv_seen hK h hs ha he
    | resetStreamAt id err final rel =>
      dsimp only at he
      split at he
      · cases he
      · exact frameRecv_seen hK h hs ha he
    | stopSending id err => exact frameSend_seen hK h hs ha (fun s1 os1 x h1 h2 => hn s1 os1 x h1 h2) he
    | stream fin id off d => exact frameRecv_seen hK h hs ha he
    | maxData m =>
      obtain ⟨rfl, _⟩ := Prod.mk.inj (Except.ok.inj he)
      exact hs.same rfl rfl rfl
    | maxStreamData id m =>
      exact frameSend_seen hK h hs ha (fun s1 os1 x h1 h2 h3 => by rw [hK.setMax] at h3; exact h3) he
    | maxStreams t m =>
      obtain ⟨rfl, _⟩ := Prod.mk.inj (Except.ok.inj he)
      exact setLoc_seen hs _ _
    | dataBlocked =>
      obtain ⟨rfl, _⟩ := Prod.mk.inj (Except.ok.inj he)
      exact hs.same rfl rfl rfl
    | streamDataBlocked id => exact frameRecv_seen hK h hs ha he
    | streamsBlocked =>
      obtain ⟨rfl, _⟩ := Prod.mk.inj (Except.ok.inj he)
      exact hs
  | create t =>
    have he : create K s t = .ok (s', os) := he
    unfold create at he
    cases ht : takeLocal s.role t (s.loc t) with
    | error e => rw [ht] at he; cases he
    | ok r =>
      obtain ⟨l, o⟩ := r
      rw [ht] at he
      cases o with
      | none =>
        obtain ⟨rfl, _⟩ := Prod.mk.inj (Except.ok.inj he)
        exact setLoc_seen hs _ _
      | some id =>
        dsimp only at he
        have hid : id = nth t s.role (s.loc t).used := by
          unfold takeLocal at ht
          split at ht
          · split at ht
            · cases ht
            · obtain ⟨_, h2⟩ := Prod.mk.inj (Except.ok.inj ht)
              obtain rfl := Option.some.inj h2
              unfold nth
              rw [← first_eq]
              unfold first
              omega
          · cases ht
        have hfr := h.fresh_local t
        rw [← hid] at hfr
        have hnr : id ∉ s.recv.map (·.1) := fun hh => hfr (h.rknown _ hh).2
        have hns : id ∉ s.send.map.map (·.1) := fun hh => hfr (h.sknown _ hh).2
        cases hp : s.peer with
        | none => rw [hp] at he; cases he
        | some p =>
          rw [hp] at he
          dsimp only at he
          cases t with
          | uni =>
            obtain ⟨rfl, _⟩ := Prod.mk.inj (Except.ok.inj he)
            obtain ⟨g3, g4⟩ := grown_send hK (l := p.uni) hns
            exact hs.grown ⟨g3, g4, fun _ _ hh => hh, fun _ _ hh => Or.inl hh⟩ rfl rfl
          | bidi =>
            obtain ⟨rfl, _⟩ := Prod.mk.inj (Except.ok.inj he)
            obtain ⟨g1, g2⟩ := grown_recv (m := s.cfg.bidiLocal) h.srt hnr
            obtain ⟨g3, g4⟩ := grown_send hK (l := p.bidiRemote) hns
            exact hs.grown ⟨g3, g4, g1, g2⟩ rfl rfl
  | recv id op =>
    have he : (s.onRecv id op).map (·, []) = .ok (s', os) := he
    cases ho : s.onRecv id op with
    | error e => rw [ho] at he; cases he
    | ok s2 =>
      rw [ho] at he
      obtain ⟨rfl, _⟩ := Prod.mk.inj (Except.ok.inj he)
      exact hs.onRecv h ho
  | send op =>
    have hal : op.Allowed s.send := by
      cases op with
      | insert id st => cases ha
      | _ => trivial
    unfold exec at he
    dsimp only at he
    rcases Sched.exec_spec hK.writer h.sok op hal with ⟨send, h1, h2⟩ | h1 | h1
    · rw [h1] at he
      obtain ⟨rfl, _⟩ := Prod.mk.inj (Except.ok.inj he)
      refine hs.sends (Sched.exec_seen hK.writer hK.ends h.sok hs.send op hn h1) ?_ rfl rfl
      refine sched_keys hK.writer h.sok op ?_ h1
      cases op <;> first | trivial | exact ha
    · rw [h1] at he
      obtain ⟨rfl, _⟩ := Prod.mk.inj (Except.ok.inj he)
      exact hs
    · rw [h1] at he
      obtain ⟨rfl, _⟩ := Prod.mk.inj (Except.ok.inj he)
      exact hs
  | spend k =>
    unfold exec at he
    dsimp only at he
    cases hc : s.conn.consume k with
    | error e => rw [hc] at he; cases he
    | ok c =>
      rw [hc] at he
      obtain ⟨rfl, _⟩ := Prod.mk.inj (Except.ok.inj he)
      exact hs.same rfl rfl rfl
  | writeMaxData fits now rtt =>
    unfold exec at he
    dsimp only at he
    cases hc : s.ses.write fits now rtt Flow.maxLocalMaxData with
    | error e => rw [hc] at he; cases he
    | ok c =>
      rw [hc] at he
      obtain ⟨rfl, _⟩ := Prod.mk.inj (Except.ok.inj he)
      exact hs.same rfl rfl rfl
  | maxDataLost m =>
    obtain ⟨rfl, _⟩ := Prod.mk.inj (Except.ok.inj he)
    exact hs.same rfl rfl rfl
  | writeMaxStreams t fits =>
    obtain ⟨rfl, _⟩ := Prod.mk.inj (Except.ok.inj he)
    exact setRemote_seen hs _ _
  | maxStreamsLost t m =>
    obtain ⟨rfl, _⟩ := Prod.mk.inj (Except.ok.inj he)
    exact setRemote_seen hs _ _
  | writeBlocked t fits =>
    obtain ⟨rfl, _⟩ := Prod.mk.inj (Except.ok.inj he)
    exact setLoc_seen hs _ _
  | blockedLost t l =>
    obtain ⟨rfl, _⟩ := Prod.mk.inj (Except.ok.inj he)
    exact setLoc_seen hs _ _
  | cleanup =>
    have he : (cleanup K s).map (·, []) = .ok (s', os) := he
    cases ho : cleanup K s with
    | error e => rw [ho] at he; cases he
    | ok s2 =>
      rw [ho] at he
      obtain ⟨rfl, _⟩ := Prod.mk.inj (Except.ok.inj he)
      obtain ⟨h1, h2, h3, _, _, _, h7, _⟩ := cleanup_result h hs ho
      constructor
      · intro id x hx hxe
        rw [h1 _ (Sched.mem_of_imFind hx)] at hxe; cases hxe
      · intro id st hst hse hd
        obtain ⟨s3, k1, k2⟩ := cleanup_spec K h
        obtain rfl := Except.ok.inj (ho.symm.trans k1)
        obtain ⟨e1, e2⟩ := h3 (id, st) (k2.inv.srt.find_eq_some.mp hst) hse
        rcases hd with hd | hd
        · rw [show isBidi id = true from e1] at hd; cases hd
        · exact absurd e2 (Sched.imFind_eq_none.mp hd)
  | limits p =>
    have he : setInitialLimits K s p = .ok (s', os) := he
    unfold setInitialLimits at he
    by_cases hr : s.role = .client
    · rw [if_pos hr] at he
      unfold updateInitialLimit at he
      split at he
      · cases he
      · rename_i send hsnd
        split at hsnd
        · cases hsnd
        · obtain rfl := Except.ok.inj hsnd
          obtain ⟨rfl, _⟩ := Prod.mk.inj (Except.ok.inj he)
          refine hs.sends ?_ (update_keys _ _) rfl rfl
          intro id x hx hxe
          have hm := Sched.mem_of_imFind hx
          obtain ⟨e, hem, hee⟩ := List.mem_map.mp hm
          obtain ⟨rfl, rfl⟩ := Prod.mk.inj hee
          have hxe : K.w.ended (K.setMax _ e.2.st) = true := hxe
          rw [hK.setMax] at hxe
          exact hs.send e.1 e.2 (h.sok.keys.find hem) hxe
    · rw [if_neg hr] at he
      obtain ⟨rfl, _⟩ := Prod.mk.inj (Except.ok.inj he)
      exact hs.same rfl rfl rfl
  | rejected =>
    obtain ⟨rfl, _⟩ := Prod.mk.inj (Except.ok.inj he)
    exact ⟨(fun id x hx => by cases hx), (fun id st hst => by cases hst)⟩

theorem seen_new (K : Kind σ γ) (role : Role) (cfg : Cfg) : Seen K (State.new role cfg) :=
  ⟨(fun id x hx => by cases hx), (fun id st hst => by cases hst)⟩

theorem reach_seen {K : Kind σ γ} (hK : KindOk K) {role : Role} {cfg : Cfg} (hc : cfg.Ok) {s : State σ}
    {h : History σ γ} (hr : Reach K True role cfg s h) : Seen K s := by
  induction hr with
  | init => exact seen_new K role cfg
  | step op hr ha hq he ih =>
    obtain ⟨n, hl⟩ := reach_link hK hc hr
    exact exec_seen hK hl.inv ih op ha (hq trivial) he

end Neqo.Strs
