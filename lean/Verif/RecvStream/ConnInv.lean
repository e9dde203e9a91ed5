import Verif.RecvStream.Inv

/-! Invariants of all receive streams of a connection together. -/
namespace Neqo.RecvS
open Neqo.Codec (Bytes)
open Neqo.Flow
open Neqo.Recv

theorem sumBy_append (f : Tr → Nat) (a b : List Tr) : sumBy f (a ++ b) = sumBy f a + sumBy f b := by
  induction a with
  | nil => simp [sumBy]
  | cons t a ih => simp [sumBy, ih, Nat.add_assoc]

theorem sumBy_set (f : Tr → Nat) {l : List Tr} {i : Nat} {t t' : Tr} (h : l[i]? = some t) :
    sumBy f (l.set i t') + f t = sumBy f l + f t' := by
  induction l generalizing i with
  | nil => simp at h
  | cons x l ih =>
    cases i with
    | zero =>
      simp at h; subst h
      simp [sumBy]; omega
    | succ i =>
      simp at h
      have := ih h
      simp [sumBy]; omega

theorem le_sumBy (f : Tr → Nat) {l : List Tr} {t : Tr} (h : t ∈ l) : f t ≤ sumBy f l := by
  induction l with
  | nil => cases h
  | cons x l ih =>
    rcases List.mem_cons.mp h with rfl | h
    · simp [sumBy]
    · have := ih h; simp [sumBy]; omega

theorem sumBy_le {f g : Tr → Nat} {l : List Tr} (h : ∀ t ∈ l, f t ≤ g t) : sumBy f l ≤ sumBy g l := by
  induction l with
  | nil => simp [sumBy]
  | cons x l ih =>
    have h1 := h x (by simp)
    have h2 := ih (fun t ht => h t (by simp [ht]))
    simp [sumBy]; omega

/-- The connection's counters are the sums over its streams. -/
structure COk (c : Conn) : Prop where
  str : ∀ t ∈ c.streams, StrOk t
  con : c.ses.consumed = sumBy Tr.hi c.streams
  ret : c.ses.retired + sumBy Tr.outstanding c.streams = sumBy Tr.hi c.streams
  adv : c.advertised.head? = some c.ses.maxAllowed

theorem cok_new (m : Nat) : COk (Conn.new m) :=
  ⟨by simp [Conn.new], rfl, rfl, rfl⟩

theorem set_mem {l : List Tr} {i : Nat} {t' x : Tr} (h : x ∈ l.set i t') : x ∈ l ∨ x = t' := by
  rcases List.mem_or_eq_of_mem_set h with h | h
  · exact .inl h
  · exact .inr h

theorem cstep_ok {c c' : Conn} {op : COp} {o : Out} (h : COk c) (hs : c.step op = .ok (c', o)) :
    COk c' := by
  cases op with
  | newStream m =>
    cases hs
    refine ⟨?_, ?_, ?_, h.adv⟩
    · intro t ht
      simp only [List.mem_append, List.mem_singleton] at ht
      rcases ht with ht | rfl
      · exact h.str t ht
      · exact strOk_new m
    · simp only [sumBy_append, sumBy, Tr.new]; rw [h.con]; rfl
    · have := h.ret
      simp only [sumBy_append, sumBy, Tr.new, Tr.outstanding, State.new]; simp; omega
  | onStream i op =>
    simp only [Conn.step] at hs
    split at hs
    · cases hs; exact h
    · rename_i t ht
      simp only [Except.bind_eq_ok, Except.pure_eq_ok] at hs
      obtain ⟨⟨t', ses', o'⟩, hstep, hs⟩ := hs
      cases hs
      have hm : t ∈ c.streams := List.mem_of_getElem? ht
      obtain ⟨h1, dc, dr, ha, hhi, hout, _⟩ := step_ok (h.str t hm) hstep
      have s1 := sumBy_set Tr.hi (t' := t') ht
      have s2 := sumBy_set Tr.outstanding (t' := t') ht
      have e1 := h.con
      have e2 := h.ret
      have e3 := ha.con
      have e4 := ha.ret
      refine ⟨?_, ?_, ?_, ?_⟩
      · intro x hx
        rcases set_mem hx with hx | rfl
        · exact h.str x hx
        · exact h1
      · simp only; omega
      · simp only; omega
      · rw [ha.all]; exact h.adv
  | write fits now rtt =>
    simp only [Conn.step, Except.bind_eq_ok, Except.pure_eq_ok] at hs
    obtain ⟨⟨ses', l⟩, hw, hs⟩ := hs
    cases hs
    obtain ⟨h1, h2, _, h4⟩ := write_ok hw
    refine ⟨h.str, by simp only; rw [h1]; exact h.con, by simp only; rw [h2]; exact h.ret, ?_⟩
    cases l with
    | none => simp only at h4 ⊢; rw [h4]; exact h.adv
    | some l => simp only at h4 ⊢; rw [h4.1]; rfl
  | maxDataLost l =>
    cases hs
    have ha := frameLost_adj c.ses l
    exact ⟨h.str, by simp only [ha.con]; exact h.con, by simp only [ha.ret]; exact h.ret,
      by simp only [ha.all]; exact h.adv⟩
  | peerBlocked =>
    cases hs
    have ha := sendFlowcUpdate_adj c.ses
    exact ⟨h.str, by simp only [ha.con]; exact h.con, by simp only [ha.ret]; exact h.ret,
      by simp only [ha.all]; exact h.adv⟩

/-- Induction over histories. -/
theorem run_induct {P : Conn → Prop} (hstep : ∀ c c' op o, P c → c.step op = .ok (c', o) → P c')
    {c c' : Conn} {ops : List COp} {os : List Out} (h : P c) (hr : c.run ops = .ok (c', os)) : P c' := by
  induction ops generalizing c os with
  | nil => cases hr; exact h
  | cons op ops ih =>
    simp only [Conn.run, Except.bind_eq_ok, Except.pure_eq_ok] at hr
    obtain ⟨⟨c1, o⟩, h1, ⟨c2, os2⟩, h2, hr⟩ := hr
    cases hr
    exact ih (hstep _ _ _ _ h h1) h2

theorem run_ok {c' : Conn} {ops : List COp} {os : List Out} {m : Nat}
    (hr : (Conn.new m).run ops = .ok (c', os)) : COk c' :=
  run_induct (fun _ _ _ _ h hs => cstep_ok h hs) (cok_new m) hr

/-! ## Limits -/

theorem step_adv {t t' : Tr} {ses ses' : RFc} {op : Op} {o : Out}
    (hs : t.step ses op = .ok (t', ses', o)) :
    (∃ fits now rtt, op = .write fits now rtt) ∨ t'.advertised = t.advertised := by
  have hn : ∀ f e, (t.note f e).advertised = t.advertised := by
    intro f e; unfold Tr.note; split <;> rfl
  cases op with
  | write fits now rtt => exact .inl ⟨_, _, _, rfl⟩
  | frame fin off d =>
    simp only [Tr.step, Except.bind_eq_ok, Except.pure_eq_ok] at hs
    obtain ⟨_, _, hs⟩ := hs
    cases hs
    right
    have : ∀ t : Tr, (t.noteFrame off d).advertised = t.advertised := by
      intro t; unfold Tr.noteFrame; split <;> rfl
    simp only [this, hn]
  | reset err fs rel =>
    simp only [Tr.step, Except.bind_eq_ok, Except.pure_eq_ok] at hs
    obtain ⟨_, _, hs⟩ := hs
    cases hs
    exact .inr (hn _ _)
  | read n =>
    simp only [Tr.step] at hs
    split at hs <;> first | (cases hs; exact .inr rfl) | cases hs
  | stopSending err =>
    simp only [Tr.step, Except.bind_eq_ok, Except.pure_eq_ok] at hs
    obtain ⟨_, _, hs⟩ := hs
    cases hs
    exact .inr rfl
  | stopSendingAcked => cases hs; exact .inr rfl
  | stopSendingLost => cases hs; exact .inr rfl
  | maxStreamDataLost l => cases hs; exact .inr rfl
  | peerBlocked => cases hs; exact .inr rfl
  | setWindow w => cases hs; exact .inr rfl

/-- A stream that is still receiving was receiving before; its counters only grew. -/
theorem recv_mono {t t' : Tr} {ses ses' : RFc} {op : Op} {o : Out} {fc' : RFc} {buf' : Rx}
    (hs : t.step ses op = .ok (t', ses', o)) (ht : t'.st = .recv fc' buf') :
    ∃ fc buf, t.st = .recv fc buf ∧
      ((∃ fits now rtt l, op = .write fits now rtt ∧
          fc.write fits now rtt maxLocalMaxStreamData = .ok (fc', l)) ∨
       (fc'.maxAllowed = fc.maxAllowed ∧ fc.retired ≤ fc'.retired ∧
        fc'.maxActive = match op with | .setWindow w => w | _ => fc.maxActive)) := by
  obtain ⟨st, adv, frames, ends, hi, delivered, finSeen⟩ := t
  cases op with
  | write fits now rtt =>
    simp only [Tr.step, Except.bind_eq_ok, Except.pure_eq_ok] at hs
    obtain ⟨⟨st1, f⟩, hw, hs⟩ := hs
    cases hs
    simp only at ht
    subst ht
    cases st with
    | recv fc buf =>
      simp only [State.writeFrame, Except.bind_eq_ok, Except.pure_eq_ok] at hw
      obtain ⟨⟨fc1, l⟩, hf, hw⟩ := hw
      cases hw
      exact ⟨fc, buf', rfl, .inl ⟨_, _, _, _, rfl, hf⟩⟩
    | abortReading fc fsr fn e a b =>
      simp only [State.writeFrame] at hw
      split at hw <;> cases hw
    | _ => cases hw
  | frame fin off d =>
    simp only [Tr.step, Except.bind_eq_ok, Except.pure_eq_ok] at hs
    obtain ⟨⟨st2, ses2, evs⟩, hin, hs⟩ := hs
    cases hs
    simp only at ht
    subst ht
    simp only [State.inboundFrame, Except.bind_eq_ok, Except.pure_eq_ok] at hin
    obtain ⟨⟨st1, ses1⟩, hc, st2', hd, hin⟩ := hin
    cases hin
    cases st with
    | recv fc buf =>
      simp only [State.consumeData, Except.bind_eq_ok, Except.pure_eq_ok] at hc
      obtain ⟨⟨fc1, ses3⟩, hc, h1⟩ := hc
      cases h1
      obtain ⟨hf, dc, dr, ha1, -⟩ := consumeCore_ok hc
      simp only [State.deliver, Except.bind_eq_ok] at hd
      obtain ⟨b1, hb, hd⟩ := hd
      split at hd
      · split at hd <;> cases hd
      · cases hd
        exact ⟨fc, buf, rfl, .inr ⟨ha1.all, by have := ha1.ret; omega, ha1.act⟩⟩
    | sizeKnown fc buf =>
      simp only [State.consumeData, Except.bind_eq_ok, Except.pure_eq_ok] at hc
      obtain ⟨⟨fc1, ses3⟩, hc, h1⟩ := hc
      cases h1
      simp only [State.deliver, Except.bind_eq_ok] at hd
      obtain ⟨b1, hb, hd⟩ := hd
      split at hd <;> cases hd
    | sizeKnownAt fc buf e fs rel =>
      simp only [State.consumeData, Except.bind_eq_ok, Except.pure_eq_ok] at hc
      obtain ⟨⟨fc1, ses3⟩, hc, h1⟩ := hc
      cases h1
      simp only [State.deliver] at hd
      split at hd
      · simp only [Except.bind_eq_ok, Except.pure_eq_ok] at hd
        obtain ⟨b1, hb, hd⟩ := hd
        cases hd
      · cases hd
    | dataRecvd fc buf =>
      simp only [State.consumeData, Except.bind_eq_ok, Except.pure_eq_ok] at hc
      obtain ⟨⟨fc1, ses3⟩, hc, h1⟩ := hc
      cases h1
      cases hd
    | abortReading fc fsr fn e a b =>
      simp only [State.consumeData, Except.bind_eq_ok, Except.pure_eq_ok] at hc
      obtain ⟨⟨fc1, ses3⟩, hc, h1⟩ := hc
      cases h1
      cases hd
    | waitForReset fc a b =>
      simp only [State.consumeData, Except.bind_eq_ok, Except.pure_eq_ok] at hc
      obtain ⟨⟨fc1, ses3⟩, hc, h1⟩ := hc
      cases h1
      cases hd
    | dataRead a b => cases hc; cases hd
    | resetRecvd a b => cases hc; cases hd
  | reset err fs rel =>
    exfalso
    simp only [Tr.step, Except.bind_eq_ok, Except.pure_eq_ok] at hs
    obtain ⟨⟨st2, ses2, r, evs⟩, hin, hs⟩ := hs
    cases hs
    simp only at ht
    subst ht
    simp only [State.reset] at hin
    split at hin
    · cases hin
    simp only [Except.bind_eq_ok] at hin
    obtain ⟨⟨st1, ses1⟩, hc, hd⟩ := hin
    have hfin : ∀ (x : State) (s : RFc) a b c d, x.finishReset s a b c d ≠ .ok (.recv fc' buf', ses2, r, evs) := by
      intro x s a b c d h
      unfold State.finishReset at h
      split at h
      all_goals first
        | (split at h
           · cases h
           · simp only [Except.bind_eq_ok, Except.pure_eq_ok] at h
             obtain ⟨_, _, h⟩ := h
             cases h)
        | cases h
    have hcd : ∀ (f : RFc) (b : Rx) e x y s, (State.sizeKnownAt f b e x y).completeIfDrained s ≠
        .ok (.recv fc' buf', ses2, r, evs) := by
      intro f b e x y s h
      simp only [State.completeIfDrained] at h
      split at h
      · cases h
      · exact hfin _ _ _ _ _ _ h
    cases st with
    | recv fc buf =>
      simp only [State.consumeData, Except.bind_eq_ok, Except.pure_eq_ok] at hc
      obtain ⟨⟨fc1, ses3⟩, hc, h1⟩ := hc
      cases h1
      simp only [State.resetMatch, Except.bind_eq_ok] at hd
      obtain ⟨_, _, hd⟩ := hd
      exact hcd _ _ _ _ _ _ hd
    | sizeKnown fc buf =>
      simp only [State.consumeData, Except.bind_eq_ok, Except.pure_eq_ok] at hc
      obtain ⟨⟨fc1, ses3⟩, hc, h1⟩ := hc
      cases h1
      simp only [State.resetMatch, Except.bind_eq_ok] at hd
      obtain ⟨_, _, hd⟩ := hd
      exact hcd _ _ _ _ _ _ hd
    | sizeKnownAt fc buf e fs rel =>
      simp only [State.consumeData, Except.bind_eq_ok, Except.pure_eq_ok] at hc
      obtain ⟨⟨fc1, ses3⟩, hc, h1⟩ := hc
      cases h1
      simp only [State.resetMatch] at hd
      split at hd
      · cases hd
      · split at hd
        · simp only [Except.bind_eq_ok] at hd
          obtain ⟨_, _, hd⟩ := hd
          exact hcd _ _ _ _ _ _ hd
        · cases hd
    | dataRecvd fc buf =>
      simp only [State.consumeData, Except.bind_eq_ok, Except.pure_eq_ok] at hc
      obtain ⟨⟨fc1, ses3⟩, hc, h1⟩ := hc
      cases h1
      cases hd
    | abortReading fc fsr fn e a b =>
      simp only [State.consumeData, Except.bind_eq_ok, Except.pure_eq_ok] at hc
      obtain ⟨⟨fc1, ses3⟩, hc, h1⟩ := hc
      cases h1
      simp only [State.resetMatch] at hd
      exact hfin _ _ _ _ _ _ hd
    | waitForReset fc a b =>
      simp only [State.consumeData, Except.bind_eq_ok, Except.pure_eq_ok] at hc
      obtain ⟨⟨fc1, ses3⟩, hc, h1⟩ := hc
      cases h1
      simp only [State.resetMatch] at hd
      exact hfin _ _ _ _ _ _ hd
    | dataRead a b => cases hc; cases hd
    | resetRecvd a b => cases hc; cases hd
  | read n =>
    simp only [Tr.step] at hs
    split at hs
    rotate_left
    · cases hs
      exact ⟨fc', buf', ht, .inr ⟨rfl, Nat.le_refl _, rfl⟩⟩
    · cases hs
    rename_i st' ses2 out fin evs hr
    cases hs
    simp only at ht
    subst ht
    cases st with
    | recv fc buf =>
      simp only [State.read, Except.bind_eq_ok, Except.pure_eq_ok] at hr
      obtain ⟨⟨b1, out'⟩, hb, ⟨fc1, ses3⟩, hf, hr⟩ := hr
      cases hr
      have ha := (retireData_ok hf).1
      exact ⟨fc, buf, rfl, .inr ⟨ha.all, by have := ha.ret; simp only at this ⊢; omega, ha.act⟩⟩
    | sizeKnown fc buf =>
      simp only [State.read, Except.bind_eq_ok, Except.pure_eq_ok] at hr
      obtain ⟨⟨b1, out'⟩, hb, ⟨fc1, ses3⟩, hf, hr⟩ := hr
      cases hr
    | dataRecvd fc buf =>
      simp only [State.read, Except.bind_eq_ok] at hr
      obtain ⟨⟨b1, out'⟩, hb, ⟨fc1, ses3⟩, hf, left, hl, hr⟩ := hr
      split at hr <;> cases hr
    | sizeKnownAt fc buf e fs rel =>
      simp only [State.read, Except.bind_eq_ok] at hr
      obtain ⟨⟨b1, out'⟩, hb, ⟨fc1, ses3⟩, hf, ⟨st3, ses4, r, ev⟩, hcm, hr⟩ := hr
      cases hr
      exfalso
      simp only [State.completeIfDrained] at hcm
      split at hcm
      · cases hcm
      · simp only [State.finishReset] at hcm
        split at hcm
        · cases hcm
        · simp only [Except.bind_eq_ok, Except.pure_eq_ok] at hcm
          obtain ⟨_, _, h⟩ := hcm
          cases h
    | _ => cases hr
  | stopSending err =>
    exfalso
    simp only [Tr.step, Except.bind_eq_ok, Except.pure_eq_ok] at hs
    obtain ⟨⟨st2, ses2, r, evs⟩, hin, hs⟩ := hs
    cases hs
    simp only at ht
    subst ht
    cases st with
    | recv fc buf =>
      simp only [State.stopSending, Except.bind_eq_ok, Except.pure_eq_ok] at hin
      obtain ⟨_, _, hin⟩ := hin
      cases hin
    | sizeKnown fc buf =>
      simp only [State.stopSending, Except.bind_eq_ok, Except.pure_eq_ok] at hin
      obtain ⟨_, _, hin⟩ := hin
      cases hin
    | dataRecvd fc buf =>
      simp only [State.stopSending, Except.bind_eq_ok, Except.pure_eq_ok] at hin
      obtain ⟨_, _, hin⟩ := hin
      cases hin
    | sizeKnownAt fc buf e fs rel =>
      simp only [State.stopSending, State.finishReset] at hin
      split at hin
      · cases hin
      · simp only [Except.bind_eq_ok, Except.pure_eq_ok] at hin
        obtain ⟨_, _, h⟩ := hin
        cases h
    | _ => cases hin
  | stopSendingAcked =>
    cases hs
    cases st with
    | abortReading fc fsr fn e a b =>
      simp only [State.stopSendingAcked] at ht
      split at ht <;> cases ht
    | _ => exact ⟨fc', buf', ht, .inr ⟨rfl, Nat.le_refl _, rfl⟩⟩
  | stopSendingLost =>
    cases hs
    cases st with
    | abortReading fc fsr fn e a b => cases ht
    | _ => exact ⟨fc', buf', ht, .inr ⟨rfl, Nat.le_refl _, rfl⟩⟩
  | maxStreamDataLost l =>
    cases hs
    cases st with
    | recv fc buf =>
      cases ht
      have ha := frameLost_adj fc l
      exact ⟨fc, buf', rfl, .inr ⟨ha.all, by have := ha.ret; omega, ha.act⟩⟩
    | _ => cases ht
  | peerBlocked =>
    cases hs
    cases st with
    | recv fc buf =>
      cases ht
      have ha := sendFlowcUpdate_adj fc
      exact ⟨fc, buf', rfl, .inr ⟨ha.all, by have := ha.ret; omega, ha.act⟩⟩
    | _ => cases ht
  | setWindow w =>
    cases hs
    cases st with
    | recv fc buf =>
      cases ht
      have ha := setMaxActive_eq fc w
      exact ⟨fc, buf', rfl, .inr ⟨ha.2.2.1, by have := ha.2.1; omega, ha.2.2.2⟩⟩
    | _ => cases ht

/-- Limits of one stream. -/
structure LimOk (t : Tr) : Prop where
  hi : ∀ l, t.advertised.head? = some l → t.hi ≤ l
  fc : ∀ fc buf, t.st = .recv fc buf → FcOk fc

theorem limOk_new {m : Nat} (h : m ≤ maxVarint) : LimOk (Tr.new m) := by
  refine ⟨by simp [Tr.new], ?_⟩
  intro fc buf he
  cases he
  exact fcOk_new h

/-- Latest first, limits never decrease. -/
def Mono (l : List Nat) : Prop := l.Pairwise (· ≥ ·)

theorem mono_cons {l : List Nat} {x : Nat} (h : Mono l) (hx : ∀ y, l.head? = some y → y ≤ x) :
    Mono (x :: l) := by
  refine List.pairwise_cons.mpr ⟨?_, h⟩
  intro y hy
  cases l with
  | nil => cases hy
  | cons z l =>
    have h1 := hx z rfl
    rcases List.mem_cons.mp hy with rfl | hy
    · exact h1
    · have := (List.pairwise_cons.mp h).1 y hy; omega

/-- This operation does not shrink the receive window of the stream. -/
def KeepsWindow (t : Tr) (op : Op) : Prop :=
  ∀ w fc buf, op = .setWindow w → t.st = .recv fc buf → fc.maxActive ≤ w

theorem limOk_step {t t' : Tr} {ses ses' : RFc} {op : Op} {o : Out}
    (h : StrOk t) (hl : LimOk t) (hk : KeepsWindow t op) (hs : t.step ses op = .ok (t', ses', o)) :
    LimOk t' ∧ ∀ l l', t.advertised.head? = some l → t'.advertised.head? = some l' → l ≤ l' := by
  obtain ⟨h', dc, dr, ha, hhi, hout, hlim⟩ := step_ok h hs
  rcases step_adv hs with ⟨fits, now, rtt, rfl⟩ | hadv
  · have hw := hs
    simp only [Tr.step, Except.bind_eq_ok, Except.pure_eq_ok] at hw
    obtain ⟨⟨st1, f⟩, hf, hw⟩ := hw
    cases hw
    simp only at hhi
    obtain ⟨st, adv, frames, ends, hi, delivered, finSeen⟩ := t
    cases st with
    | recv fc buf =>
      simp only [State.writeFrame, Except.bind_eq_ok, Except.pure_eq_ok] at hf
      obtain ⟨⟨fc1, l⟩, hf, hw⟩ := hf
      cases hw
      have h0 := hl.fc fc buf rfl
      obtain ⟨k1, k2⟩ := h0.write hf
      have hst := h.st
      have hst' := h'.st
      obtain ⟨⟨hcon, hadv⟩, -⟩ := hst
      obtain ⟨⟨hcon', hadv'⟩, -⟩ := hst'
      simp only at hcon hadv hcon' hadv'
      refine ⟨⟨?_, ?_⟩, ?_⟩
      · intro l' hl'
        simp only at hl' ⊢
        rw [hadv'] at hl'
        cases hl'
        have := k1.con
        omega
      · intro fc2 b2 he
        cases he
        exact k1
      · intro l1 l2 e1 e2
        simp only at e1 e2
        rw [hadv] at e1
        rw [hadv'] at e2
        cases e1; cases e2
        exact k2
    | abortReading fc fsr fn e a b =>
      simp only [State.writeFrame] at hf
      split at hf <;>
      · cases hf
        exact ⟨⟨hl.hi, by intro _ _ he; cases he⟩, by intro l l' e1 e2; simp only at e1 e2; rw [e1] at e2; cases e2; exact Nat.le_refl _⟩
    | _ =>
      cases hf
      exact ⟨⟨hl.hi, by intro _ _ he; cases he⟩, by intro l l' e1 e2; simp only at e1 e2; rw [e1] at e2; cases e2; exact Nat.le_refl _⟩
  · have hhi' : ∀ l, t'.advertised.head? = some l → t'.hi ≤ l := by
      intro l hl'
      rw [hadv] at hl'
      by_cases hp : 0 < dc
      · exact (hlim hp).2 l hl'
      · have := hl.hi l hl'; omega
    refine ⟨⟨hhi', ?_⟩, by rw [hadv]; intro l l' e1 e2; rw [e1] at e2; cases e2; exact Nat.le_refl _⟩
    intro fc' buf' he
    obtain ⟨fc, buf, hst, hcase⟩ := recv_mono hs he
    have h0 := hl.fc fc buf hst
    rcases hcase with ⟨fits, now, rtt, l, rfl, hw⟩ | ⟨e1, e2, e3⟩
    · exact (h0.write hw).1
    · have hst' := h'.st
      have hlen := h'.len
      rw [he] at hst'
      obtain ⟨⟨hcon, hadv'⟩, hinv, hdl, hret, -⟩ := hst'
      have hc := hhi' _ hadv'
      have hact : fc.maxActive ≤ fc'.maxActive := by
        rw [e3]
        cases op with
        | setWindow w => exact hk w fc buf rfl hst
        | _ => exact Nat.le_refl _
      obtain ⟨a, b, c, d⟩ := h0
      exact ⟨by omega, by omega, by omega, by omega⟩

/-! ## No panics -/

theorem retireData_succeeds {n : Nat} {fc ses : RFc} (h1 : fc.retired + n ≤ fc.consumed)
    (h2 : fc.consumed ≤ fc.maxAllowed) (h3 : ses.retired + n ≤ ses.consumed)
    (h4 : ses.consumed ≤ ses.maxAllowed) : ∃ fc' ses', retireData n fc ses = .ok (fc', ses') := by
  unfold retireData
  obtain ⟨f, hf⟩ := addRetired_succeeds h1 (by omega)
  obtain ⟨s, hs⟩ := addRetired_succeeds h3 (by omega)
  rw [hf, hs]
  split
  · exact ⟨_, _, rfl⟩
  · exact ⟨_, _, rfl⟩

theorem consumeCore_error {fc ses : RFc} {known retire fin : Bool} {consumed : Nat} {e : Err}
    (h1 : fc.retired ≤ fc.consumed) (h2 : fc.consumed ≤ fc.maxAllowed)
    (h3 : ses.retired ≤ ses.consumed)
    (h5 : retire = true → fc.retired = fc.consumed)
    (h : consumeCore fc ses known retire consumed fin = .error e) :
    (finalSizeOk fin known consumed fc.consumed = false ∧ e = .finalSize) ∨
    (finalSizeOk fin known consumed fc.consumed = true ∧ e = .flowControl ∧ fc.consumed < consumed ∧
      (fc.maxAllowed < consumed ∨ ses.maxAllowed < ses.consumed + (consumed - fc.consumed))) ∨
    (e = .flowControl ∧ ses.maxAllowed < ses.consumed) := by
  unfold consumeCore at h
  split at h
  · rename_i hf
    right
    simp only [Except.bind_eq_error] at h
    rcases h with h | ⟨⟨fc1, k⟩, g1, h | ⟨ses1, g2, h⟩⟩
    · left
      unfold RFc.setConsumed at h
      split at h
      · cases h
      · split at h
        · cases h
          exact ⟨hf, rfl, by omega, .inl (by omega)⟩
        · cases h
    · have k1 := setConsumed_ok g1
      unfold RFc.consume at h
      split at h
      · rename_i hlt
        cases h
        have := k1.1.con
        have := k1.2.1
        simp only at hlt
        by_cases hc : fc.consumed < consumed
        · exact .inl ⟨hf, rfl, hc, .inr (by omega)⟩
        · exact .inr ⟨rfl, by omega⟩
      · cases h
    · exfalso
      have k1 := setConsumed_ok g1
      have k2 := consume_ok (n := k) g2
      have a1 := k1.1.con; have a2 := k1.1.ret; have a3 := k1.1.all
      have b1 := k2.1.con; have b2 := k2.1.ret; have b3 := k2.1.all
      cases retire with
      | true =>
        have h5 := h5 rfl
        simp only [if_true] at h
        obtain ⟨x, y, hxy⟩ := retireData_succeeds (n := fc1.consumed - fc1.retired) (fc := fc1) (ses := ses1)
          (by omega) (by have := k1.2.2; omega) (by omega) (by omega)
        rw [hxy] at h; cases h
      | false => cases h
  · rename_i hf
    cases h
    exact .inl ⟨by simpa using hf, rfl⟩

theorem finishReset_succeeds {st : State} {ses : RFc} {fs err a b : Nat} {fc : RFc}
    (hfc : (∃ buf e x rel, st = .sizeKnownAt fc buf e x rel) ∨
      (∃ f n e x y, st = .abortReading fc f n e x y) ∨ (∃ x y, st = .waitForReset fc x y))
    (h0 : fc.retired ≤ fs) (h1 : fs ≤ fc.consumed) (h2 : fc.consumed ≤ fc.maxAllowed)
    (h3 : ses.retired + (fs - fc.retired) ≤ ses.consumed) (h4 : ses.consumed ≤ ses.maxAllowed) :
    ∃ ses', st.finishReset ses fs err a b = .ok (.resetRecvd a b, ses', true, [.reset err]) := by
  have : st.finishReset ses fs err a b = (if fs < fc.retired then .error .panic
    else do
      let (_, ses') ← retireData (fs - fc.retired) fc ses
      pure (State.resetRecvd a b, ses', true, [Ev.reset err])) := by
    rcases hfc with ⟨_, _, _, _, rfl⟩ | ⟨_, _, _, _, _, rfl⟩ | ⟨_, _, rfl⟩ <;> rfl
  rw [this, if_neg (by omega)]
  obtain ⟨x, y, hxy⟩ := retireData_succeeds (n := fs - fc.retired) (fc := fc) (ses := ses)
    (by omega) h2 h3 h4
  rw [hxy]
  exact ⟨y, rfl⟩

/-- What is needed to rule out arithmetic panics. -/
structure Fit (t : Tr) (ses : RFc) : Prop where
  str : StrOk t
  lim : LimOk t
  out : ses.retired + t.outstanding ≤ ses.consumed
  ses : FcOk ses

theorem StOk.fcBound {t : Tr} (h : StrOk t) (hl : LimOk t) :
    match t.st with
    | .recv fc _ | .sizeKnown fc _ | .dataRecvd fc _ | .sizeKnownAt fc _ _ _ _
    | .abortReading fc _ _ _ _ _ | .waitForReset fc _ _ =>
      fc.retired ≤ fc.consumed ∧ fc.consumed ≤ fc.maxAllowed ∧ fc.consumed = t.hi ∧
        t.advertised.head? = some fc.maxAllowed
    | _ => True := by
  have hlen := h.len
  have hst := h.st
  have hhi := hl.hi
  split
  all_goals first
    | (rename_i heq
       rw [heq] at hst
       have h1 := hst.1.con
       have h2 := hhi _ hst.1.adv
       refine ⟨?_, by omega, h1, hst.1.adv⟩)
    | trivial
  · obtain ⟨-, -, a, b, -⟩ := hst; omega
  · obtain ⟨-, -, a, b, -⟩ := hst; omega
  · obtain ⟨-, -, a, b, -⟩ := hst; omega
  · obtain ⟨-, -, a, b, c, d, e, -⟩ := hst; omega
  · obtain ⟨-, a, -⟩ := hst; omega
  · obtain ⟨-, a, -⟩ := hst; omega

/-- The final size is fixed in this state. -/
def State.known : State → Bool
  | .sizeKnown .. | .sizeKnownAt .. | .dataRecvd .. => true
  | .abortReading _ fsr _ _ _ _ => fsr
  | _ => false

/-- The flow control of a stream that has not ended. -/
def State.fc? : State → Option RFc
  | .recv fc _ | .sizeKnown fc _ | .dataRecvd fc _ | .sizeKnownAt fc _ _ _ _
  | .abortReading fc _ _ _ _ _ | .waitForReset fc _ _ => some fc
  | _ => none

/-- Bytes are discarded as they arrive. -/
def State.discards : State → Bool
  | .abortReading .. | .waitForReset .. => true
  | _ => false

theorem fc_of_not_ended {st : State} (h : st.isEnded = false) : ∃ fc, st.fc? = some fc := by
  cases st <;> first | exact ⟨_, rfl⟩ | cases h

theorem consumeData_eq {st : State} {fc : RFc} (h : st.fc? = some fc) (ses : RFc) (c : Nat) (fin : Bool) :
    ∃ f : RFc → State, st.consumeData ses c fin = (do
      let (fc', ses') ← consumeCore fc ses st.known st.discards c fin
      pure (f fc', ses')) := by
  cases st with
  | recv f buf => cases h; exact ⟨fun x => .recv x buf, rfl⟩
  | sizeKnown f buf => cases h; exact ⟨fun x => .sizeKnown x buf, rfl⟩
  | sizeKnownAt f buf e fs rel => cases h; exact ⟨fun x => .sizeKnownAt x buf e fs rel, rfl⟩
  | dataRecvd f buf => cases h; exact ⟨fun x => .dataRecvd x buf, rfl⟩
  | abortReading f fsr fn e a b => cases h; exact ⟨fun x => .abortReading x (fsr || fin) fn e a b, rfl⟩
  | waitForReset f a b => cases h; exact ⟨fun x => .waitForReset x a b, rfl⟩
  | dataRead a b => cases h
  | resetRecvd a b => cases h

theorem fcBound {t : Tr} {fc : RFc} (h : StrOk t) (hl : LimOk t) (hf : t.st.fc? = some fc) :
    fc.retired ≤ fc.consumed ∧ fc.consumed ≤ fc.maxAllowed ∧ fc.consumed = t.hi ∧
      t.advertised.head? = some fc.maxAllowed ∧ (t.st.discards = true → fc.retired = fc.consumed) := by
  have := StOk.fcBound h hl
  have hst := h.st
  obtain ⟨st, adv, frames, ends, hi, delivered, finSeen⟩ := t
  cases st with
  | recv f buf => cases hf; exact ⟨this.1, this.2.1, this.2.2.1, this.2.2.2, nofun⟩
  | sizeKnown f buf => cases hf; exact ⟨this.1, this.2.1, this.2.2.1, this.2.2.2, nofun⟩
  | sizeKnownAt f buf e fs rel => cases hf; exact ⟨this.1, this.2.1, this.2.2.1, this.2.2.2, nofun⟩
  | dataRecvd f buf => cases hf; exact ⟨this.1, this.2.1, this.2.2.1, this.2.2.2, nofun⟩
  | abortReading f fsr fn e a b =>
    cases hf
    exact ⟨this.1, this.2.1, this.2.2.1, this.2.2.2, fun _ => hst.2.1.trans hst.1.con.symm⟩
  | waitForReset f a b =>
    cases hf
    exact ⟨this.1, this.2.1, this.2.2.1, this.2.2.2, fun _ => hst.2.1.trans hst.1.con.symm⟩
  | dataRead a b => cases hf
  | resetRecvd a b => cases hf

theorem consumeData_error {t : Tr} {ses : RFc} {c : Nat} {fin : Bool} {e : Err} (hf : Fit t ses)
    (h : t.st.consumeData ses c fin = .error e) :
    (finalSizeOk fin t.st.known c t.hi = false ∧ e = .finalSize) ∨
    (finalSizeOk fin t.st.known c t.hi = true ∧ e = .flowControl ∧ t.hi < c ∧
      ((∃ l, t.advertised.head? = some l ∧ l < c) ∨ ses.maxAllowed < ses.consumed + (c - t.hi))) := by
  by_cases hend : t.st.isEnded = true
  · exfalso
    cases hst : t.st <;> rw [hst] at h hend <;> cases hend <;> cases h
  obtain ⟨fc, hfc⟩ := fc_of_not_ended (by simpa using hend)
  obtain ⟨b1, b2, b3, b4, b5⟩ := fcBound hf.str hf.lim hfc
  obtain ⟨f, hf'⟩ := consumeData_eq hfc ses c fin
  rw [hf'] at h
  simp only [Except.bind_eq_error] at h
  rcases h with h | ⟨_, _, h⟩
  · rcases consumeCore_error b1 b2 (by have := hf.out; omega) b5 h with h | ⟨h1, h2, h3, h4⟩ | h
    · rw [b3] at h; exact .inl h
    · rw [b3] at h1 h3 h4
      refine .inr ⟨h1, h2, h3, ?_⟩
      rcases h4 with h4 | h4
      · exact .inl ⟨_, b4, h4⟩
      · exact .inr h4
    · have := hf.ses.con; omega
  · cases h

/-- A frame that contradicts the known or implied final size is refused. -/
theorem consumeData_final {t : Tr} (ses : RFc) {c : Nat} {fin : Bool} (h : StrOk t)
    (hend : t.st.isEnded = false) (hbad : finalSizeOk fin t.st.known c t.hi = false) :
    t.st.consumeData ses c fin = .error .finalSize := by
  obtain ⟨fc, hfc⟩ := fc_of_not_ended hend
  obtain ⟨f, hf'⟩ := consumeData_eq hfc ses c fin
  have hc : fc.consumed = t.hi := by
    have hst := h.st
    cases he : t.st <;> rw [he] at hfc hst <;> first | (cases hfc; exact hst.1.con) | cases hfc
  rw [hf', consumeCore, hc, hbad]
  rfl

/-- A frame beyond the limits is refused. -/
theorem consumeData_limit {t : Tr} (ses : RFc) {c : Nat} {fin : Bool} (h : StrOk t)
    (hend : t.st.isEnded = false) (hgood : finalSizeOk fin t.st.known c t.hi = true)
    (hc : t.hi < c) (hbad : (∃ l, t.advertised.head? = some l ∧ l < c) ∨
      ses.maxAllowed < ses.consumed + (c - t.hi)) :
    t.st.consumeData ses c fin = .error .flowControl := by
  obtain ⟨fc, hfc⟩ := fc_of_not_ended hend
  obtain ⟨f, hf'⟩ := consumeData_eq hfc ses c fin
  have hcon : fc.consumed = t.hi ∧ t.advertised.head? = some fc.maxAllowed := by
    have hst := h.st
    cases he : t.st <;> rw [he] at hfc hst <;> first | (cases hfc; exact ⟨hst.1.con, hst.1.adv⟩) | cases hfc
  rw [hf', consumeCore, hcon.1, hgood, if_pos rfl]
  unfold RFc.setConsumed
  rw [if_neg (by omega)]
  split
  · rfl
  · rename_i hle
    rcases hbad with ⟨l, hl, hlt⟩ | hlt
    · rw [hcon.2] at hl; cases hl; omega
    · unfold RFc.consume
      simp only [bind, Except.bind]
      rw [if_pos (by omega)]

theorem deliver_error {st : State} {fin : Bool} {off : Nat} {d : Bytes} {e : Err}
    (h : st.deliver fin off d = .error e) : e = .protocolViolation := by
  cases st with
  | recv fc buf =>
    simp only [State.deliver, Except.bind_eq_error] at h
    rcases h with h | ⟨_, _, h⟩
    · exact inboundFrame_error h
    · split at h
      · split at h <;> cases h
      · cases h
  | sizeKnown fc buf =>
    simp only [State.deliver, Except.bind_eq_error] at h
    rcases h with h | ⟨_, _, h⟩
    · exact inboundFrame_error h
    · split at h <;> cases h
  | sizeKnownAt fc buf err fs rel =>
    simp only [State.deliver] at h
    split at h
    · simp only [Except.bind_eq_error] at h
      rcases h with h | ⟨_, _, h⟩
      · exact inboundFrame_error h
      · cases h
    · cases h
  | _ => cases h

/-- Everything that can make a STREAM frame fail. -/
theorem frame_error {t : Tr} {ses : RFc} {off : Nat} {d : Bytes} {fin : Bool} {e : Err} (hf : Fit t ses)
    (h : t.step ses (.frame fin off d) = .error e) :
    (finalSizeOk fin t.st.known (off + d.length) t.hi = false ∧ e = .finalSize) ∨
    (finalSizeOk fin t.st.known (off + d.length) t.hi = true ∧ e = .flowControl ∧
      t.hi < off + d.length ∧
      ((∃ l, t.advertised.head? = some l ∧ l < off + d.length) ∨
        ses.maxAllowed < ses.consumed + (off + d.length - t.hi))) ∨
    e = .protocolViolation := by
  simp only [Tr.step, Except.bind_eq_error] at h
  rcases h with h | ⟨_, _, h⟩
  · simp only [State.inboundFrame, Except.bind_eq_error] at h
    rcases h with h | ⟨_, _, h | ⟨_, _, h⟩⟩
    · rcases consumeData_error hf h with h | h
      · exact .inl h
      · exact .inr (.inl h)
    · exact .inr (.inr (deliver_error h))
    · cases h
  · cases h

theorem completeIfDrained_succeeds {fc ses : RFc} {buf : Rx} {err fs rel : Nat}
    (h1 : fs = fc.retired + (rel - buf.retired)) (h2 : fs = fc.consumed)
    (h3 : fc.consumed ≤ fc.maxAllowed) (h4 : ses.retired ≤ ses.consumed)
    (h5 : ses.consumed ≤ ses.maxAllowed) :
    ∃ r, (State.sizeKnownAt fc buf err fs rel).completeIfDrained ses = .ok r := by
  simp only [State.completeIfDrained]
  split
  · exact ⟨_, rfl⟩
  · obtain ⟨s, hs⟩ := finishReset_succeeds (st := .sizeKnownAt fc buf err fs rel) (ses := ses) (fs := fs)
      (err := err) (a := buf.received) (b := buf.retired) (.inl ⟨_, _, _, _, rfl⟩)
      (by omega) (by omega) h3 (by omega) h5
    exact ⟨_, hs⟩

theorem resetLive_succeeds {fc ses : RFc} {buf : Rx} {err fs rel : Nat}
    (h1 : fc.retired ≤ fs - (rel - buf.retired)) (hr : rel ≤ fs) (h2 : fs = fc.consumed)
    (h3 : fc.consumed ≤ fc.maxAllowed)
    (h4 : ses.retired + (fs - (rel - buf.retired) - fc.retired) ≤ ses.consumed)
    (h5 : ses.consumed ≤ ses.maxAllowed) :
    ∃ r, (do
      let (fc', ses') ← retireUndeliverable fs rel (buf.discardAfter rel).retired fc ses
      (State.sizeKnownAt fc' (buf.discardAfter rel) err fs rel).completeIfDrained ses') = .ok r := by
  simp only [retireUndeliverable, discardAfter_retired]
  obtain ⟨f, s, hfs⟩ := retireData_succeeds (n := fs - (rel - buf.retired) - fc.retired) (fc := fc)
    (ses := ses) (by omega) h3 h4 h5
  have hok := retireData_ok hfs
  have a1 := hok.1.con; have a2 := hok.1.ret; have a3 := hok.1.all
  have b1 := hok.2.1.con; have b2 := hok.2.1.ret; have b3 := hok.2.1.all
  rw [hfs]
  simp only [bind, Except.bind]
  exact completeIfDrained_succeeds (by rw [discardAfter_retired]; omega) (by omega) (by omega) (by omega) (by omega)

/-- Everything that can make a reset fail. -/
theorem reset_error {t : Tr} {ses : RFc} {err fs rel : Nat} {e : Err} (hf : Fit t ses)
    (h : t.step ses (.reset err fs rel) = .error e) :
    (fs < rel ∧ e = .frameEncoding) ∨
    (finalSizeOk true t.st.known fs t.hi = false ∧ e = .finalSize) ∨
    (finalSizeOk true t.st.known fs t.hi = true ∧ e = .flowControl ∧ t.hi < fs ∧
      ((∃ l, t.advertised.head? = some l ∧ l < fs) ∨
        ses.maxAllowed < ses.consumed + (fs - t.hi))) ∨
    ((∃ fc buf e' fs' rel', t.st = .sizeKnownAt fc buf e' fs' rel' ∧ e' ≠ err) ∧ e = .streamState) := by
  have hlen := hf.str.len
  simp only [Tr.step, Except.bind_eq_error] at h
  rcases h with h | ⟨_, _, h⟩
  rotate_left
  · cases h
  simp only [State.reset] at h
  split at h
  · rename_i hlt
    cases h
    exact .inl ⟨hlt, rfl⟩
  rename_i hle
  right
  simp only [Except.bind_eq_error] at h
  rcases h with h | ⟨⟨st1, ses1⟩, hc, h⟩
  · rcases consumeData_error hf h with h | h
    · exact .inl h
    · exact .inr (.inl h)
  right; right
  by_cases hend : t.st.isEnded = true
  · exfalso
    cases hst : t.st <;> rw [hst] at hend hc <;> cases hend <;> cases hc <;> cases h
  obtain ⟨fc, hfc⟩ := fc_of_not_ended (by simpa using hend)
  obtain ⟨b1, b2, b3, b4, b5⟩ := fcBound hf.str hf.lim hfc
  have hout := hf.out
  have hst := hf.str.st
  have hsm := hf.ses.con
  obtain ⟨st, adv, frames, ends, hi, delivered, finSeen⟩ := t
  simp only at hfc b1 b2 b3 b4 b5 hout hc hst h hlen
  cases st with
  | recv f buf =>
    cases hfc
    simp only [State.consumeData, Except.bind_eq_ok, Except.pure_eq_ok] at hc
    obtain ⟨⟨fc', ses3⟩, hc, h1⟩ := hc
    cases h1
    obtain ⟨hfin, dc, dr, ha1, ha2, hmax, hlim, hses, hdr⟩ := consumeCore_ok hc
    obtain ⟨⟨hcon, hadv⟩, hinv, hdl, hret, hfs, hend⟩ := hst
    simp only [Bool.false_eq_true, if_false] at hdr
    subst hdr
    have hge := finalSizeOk_fin_unknown hfin
    have a1 := ha1.con; have a2 := ha1.ret; have a3 := ha1.all
    have c1 := ha2.con; have c2 := ha2.ret; have c3 := ha2.all
    simp only [Tr.outstanding] at hout
    simp only [State.resetMatch] at h
    obtain ⟨r, hr⟩ := resetLive_succeeds (fc := fc') (ses := ses3) (buf := buf) (err := err) (fs := fs)
      (rel := rel) (by omega) (by omega) (by omega) (by omega) (by omega) (by omega)
    rw [hr] at h
    cases h
  | sizeKnown f buf =>
    cases hfc
    simp only [State.consumeData, Except.bind_eq_ok, Except.pure_eq_ok] at hc
    obtain ⟨⟨fc', ses3⟩, hc, h1⟩ := hc
    cases h1
    obtain ⟨hfin, dc, dr, ha1, ha2, hmax, hlim, hses, hdr⟩ := consumeCore_ok hc
    obtain ⟨⟨hcon, hadv⟩, hinv, hdl, hret, hfs, hend, _⟩ := hst
    simp only [Bool.false_eq_true, if_false] at hdr
    subst hdr
    have hge := (finalSizeOk_known hfin).2 rfl
    have a1 := ha1.con; have a2 := ha1.ret; have a3 := ha1.all
    have c1 := ha2.con; have c2 := ha2.ret; have c3 := ha2.all
    simp only [Tr.outstanding] at hout
    simp only [State.resetMatch] at h
    obtain ⟨r, hr⟩ := resetLive_succeeds (fc := fc') (ses := ses3) (buf := buf) (err := err) (fs := fs)
      (rel := rel) (by omega) (by omega) (by omega) (by omega) (by omega) (by omega)
    rw [hr] at h
    cases h
  | sizeKnownAt f buf e' fs' stored =>
    cases hfc
    simp only [State.consumeData, Except.bind_eq_ok, Except.pure_eq_ok] at hc
    obtain ⟨⟨fc', ses3⟩, hc, h1⟩ := hc
    cases h1
    obtain ⟨hfin, dc, dr, ha1, ha2, hmax, hlim, hses, hdr⟩ := consumeCore_ok hc
    obtain ⟨⟨hcon, hadv⟩, hinv, hdl, hlt, hle, hfsz, hret, hfs, hend⟩ := hst
    simp only [Bool.false_eq_true, if_false] at hdr
    subst hdr
    have hge := (finalSizeOk_known hfin).2 rfl
    have a1 := ha1.con; have a2 := ha1.ret; have a3 := ha1.all
    have c1 := ha2.con; have c2 := ha2.ret; have c3 := ha2.all
    simp only [Tr.outstanding] at hout
    simp only [State.resetMatch] at h
    split at h
    · rename_i hne
      cases h
      exact ⟨⟨_, _, _, _, _, rfl, fun h => hne h.symm⟩, rfl⟩
    · split at h
      · obtain ⟨r, hr⟩ := resetLive_succeeds (fc := fc') (ses := ses3) (buf := buf) (err := e') (fs := fs')
          (rel := rel) (by omega) (by omega) (by omega) (by omega) (by omega) (by omega)
        rw [hr] at h
        cases h
      · cases h
  | dataRecvd f buf =>
    simp only [State.consumeData, Except.bind_eq_ok, Except.pure_eq_ok] at hc
    obtain ⟨⟨fc', ses3⟩, hc, h1⟩ := hc
    cases h1
    cases h
  | abortReading f fsr fn e' a b =>
    cases hfc
    simp only [State.consumeData, Except.bind_eq_ok, Except.pure_eq_ok] at hc
    obtain ⟨⟨fc', ses3⟩, hc, h1⟩ := hc
    cases h1
    obtain ⟨hfin, dc, dr, ha1, ha2, hmax, hlim, hses, hdr⟩ := consumeCore_ok hc
    obtain ⟨⟨hcon, hadv⟩, hret, hfs, hend⟩ := hst
    simp only [if_true] at hdr
    have hge : fs ≥ fc.consumed := by
      cases fsr with
      | true => have := (finalSizeOk_known hfin).2 rfl; omega
      | false => exact finalSizeOk_fin_unknown hfin
    have a1 := ha1.con; have a2 := ha1.ret; have a3 := ha1.all
    have c1 := ha2.con; have c2 := ha2.ret; have c3 := ha2.all
    simp only [State.resetMatch] at h
    obtain ⟨s, hs⟩ := finishReset_succeeds (st := .abortReading fc' (fsr || true) fn e' a b) (ses := ses3)
      (fs := fs) (err := err) (a := a) (b := b) (.inr (.inl ⟨_, _, _, _, _, rfl⟩))
      (by omega) (by omega) (by omega) (by omega) (by omega)
    rw [hs] at h
    cases h
  | waitForReset f a b =>
    cases hfc
    simp only [State.consumeData, Except.bind_eq_ok, Except.pure_eq_ok] at hc
    obtain ⟨⟨fc', ses3⟩, hc, h1⟩ := hc
    cases h1
    obtain ⟨hfin, dc, dr, ha1, ha2, hmax, hlim, hses, hdr⟩ := consumeCore_ok hc
    obtain ⟨⟨hcon, hadv⟩, hret, hfs⟩ := hst
    simp only [if_true] at hdr
    have hge := finalSizeOk_fin_unknown hfin
    have a1 := ha1.con; have a2 := ha1.ret; have a3 := ha1.all
    have c1 := ha2.con; have c2 := ha2.ret; have c3 := ha2.all
    simp only [State.resetMatch] at h
    obtain ⟨s, hs⟩ := finishReset_succeeds (st := .waitForReset fc' a b) (ses := ses3)
      (fs := fs) (err := err) (a := a) (b := b) (.inr (.inr ⟨_, _, rfl⟩))
      (by omega) (by omega) (by omega) (by omega) (by omega)
    rw [hs] at h
    cases h
  | dataRead a b => exact absurd rfl hend
  | resetRecvd a b => exact absurd rfl hend

/-- Application calls and frame writing never fail. -/
theorem local_succeeds {t : Tr} {ses : RFc} {op : Op} (hf : Fit t ses)
    (hop : (∀ fin off d, op ≠ .frame fin off d) ∧ (∀ err fs rel, op ≠ .reset err fs rel)) :
    ∃ r, t.step ses op = .ok r := by
  have hlen := hf.str.len
  have hout := hf.out
  have hst := hf.str.st
  have hsm := hf.ses.con
  have hsr := hf.ses.ret
  have hfcb := fun fc h => fcBound (fc := fc) hf.str hf.lim h
  have hlf := hf.lim.fc
  obtain ⟨st, adv, frames, ends, hi, delivered, finSeen⟩ := t
  simp only at hout hst hlen hfcb hlf
  cases op with
  | frame fin off d => exact absurd rfl (hop.1 _ _ _)
  | reset err fs rel => exact absurd rfl (hop.2 _ _ _)
  | read n =>
    have key : ∀ {buf : Rx} {R : Rcv}, (∀ i b, R i b → carried frames i b) →
        Inv R buf → delivered.length = buf.retired →
        ∃ buf' out, buf.read n = .ok (buf', out) ∧ Inv R buf' ∧
          buf'.retired = buf.retired + out.length ∧ buf'.retired ≤ hi := by
      intro buf R hR hinv hdl
      obtain ⟨b2, o2, he, h1, h2, h3, _⟩ := read_inv hinv n
      have hok2 : Ok (carried frames) 0 (delivered ++ o2) :=
        hf.str.ok.append (by rw [hdl, Nat.zero_add]; exact h2.mono hR)
      have : StrOk ⟨.resetRecvd 0 0, adv, frames, ends, hi, delivered ++ o2, false⟩ :=
        ⟨hok2, hf.str.top, rfl⟩
      have := this.len
      simp only [List.length_append] at this
      exact ⟨b2, o2, he, h1, h3, by omega⟩
    simp only [Tr.step]
    cases st with
    | recv fc buf =>
      obtain ⟨b1, b2, b3, b4, b5⟩ := hfcb fc rfl
      obtain ⟨⟨hcon, hadv⟩, hinv, hdl, hret, hfs, hend⟩ := hst
      obtain ⟨b', o', e1, e2, e3, e4⟩ := key (fun _ _ h => h) hinv hdl
      simp only [Tr.outstanding] at hout
      obtain ⟨f, s, hfs⟩ := retireData_succeeds (n := o'.length) (fc := fc) (ses := ses) (by omega) (by omega)
        (by omega) (by omega)
      simp only [State.read, e1, bind, Except.bind, hfs]
      exact ⟨_, rfl⟩
    | sizeKnown fc buf =>
      obtain ⟨b1, b2, b3, b4, b5⟩ := hfcb fc rfl
      obtain ⟨⟨hcon, hadv⟩, hinv, hdl, hret, hfs, hend, hgap⟩ := hst
      obtain ⟨b', o', e1, e2, e3, e4⟩ := key (fun _ _ h => h) hinv hdl
      simp only [Tr.outstanding] at hout
      obtain ⟨f, s, hfs⟩ := retireData_succeeds (n := o'.length) (fc := fc) (ses := ses) (by omega) (by omega)
        (by omega) (by omega)
      simp only [State.read, e1, bind, Except.bind, hfs]
      exact ⟨_, rfl⟩
    | dataRecvd fc buf =>
      obtain ⟨b1, b2, b3, b4, b5⟩ := hfcb fc rfl
      obtain ⟨⟨hcon, hadv⟩, hinv, hdl, hret, hfs, hend, hall⟩ := hst
      obtain ⟨b', o', e1, e2, e3, e4⟩ := key (fun _ _ h => h) hinv hdl
      simp only [Tr.outstanding] at hout
      obtain ⟨f, s, hfs⟩ := retireData_succeeds (n := o'.length) (fc := fc) (ses := ses) (by omega) (by omega)
        (by omega) (by omega)
      obtain ⟨m, hm, _⟩ := buffered_spec e2
      simp only [State.read, e1, bind, Except.bind, hfs, hm]
      by_cases h0 : m = 0
      · rw [if_pos h0]; exact ⟨_, rfl⟩
      · rw [if_neg h0]; exact ⟨_, rfl⟩
    | sizeKnownAt fc buf e fs rel =>
      obtain ⟨b1, b2, b3, b4, b5⟩ := hfcb fc rfl
      obtain ⟨⟨hcon, hadv⟩, hinv, hdl, hlt, hle, hfsz, hret, hfs, hend⟩ := hst
      obtain ⟨b', o', e1, e2, e3, e4⟩ := key (fun _ _ h => h.1) hinv hdl
      have hrd : b'.retired ≤ rel := by
        by_contra hgt
        obtain ⟨b, hb'⟩ := e2.past rel (by omega)
        exact absurd hb'.2 (by omega)
      simp only [Tr.outstanding] at hout
      obtain ⟨f, s, hfs⟩ := retireData_succeeds (n := o'.length) (fc := fc) (ses := ses) (by omega) (by omega)
        (by omega) (by omega)
      have hok := retireData_ok hfs
      have a1 := hok.1.con; have a2 := hok.1.ret; have a3 := hok.1.all
      have c1 := hok.2.1.con; have c2 := hok.2.1.ret; have c3 := hok.2.1.all
      obtain ⟨⟨x1, x2, x3, x4⟩, hx⟩ := completeIfDrained_succeeds (fc := f) (ses := s) (buf := b') (err := e)
        (fs := fs) (rel := rel) (by omega) (by omega) (by omega) (by omega) (by omega)
      simp only [State.read, e1, bind, Except.bind, hfs, hx]
      exact ⟨_, rfl⟩
    | _ => exact ⟨_, rfl⟩
  | stopSending err =>
    simp only [Tr.step]
    cases st with
    | recv fc buf =>
      obtain ⟨b1, b2, b3, b4, b5⟩ := hfcb fc rfl
      obtain ⟨⟨hcon, hadv⟩, hinv, hdl, hret, -⟩ := hst
      simp only [Tr.outstanding] at hout
      obtain ⟨f, s, hfs⟩ := retireData_succeeds (n := fc.consumed - fc.retired) (fc := fc) (ses := ses)
        (by omega) (by omega) (by omega) (by omega)
      simp only [State.stopSending, bind, Except.bind, hfs]
      exact ⟨_, rfl⟩
    | sizeKnown fc buf =>
      obtain ⟨b1, b2, b3, b4, b5⟩ := hfcb fc rfl
      obtain ⟨⟨hcon, hadv⟩, hinv, hdl, hret, -⟩ := hst
      simp only [Tr.outstanding] at hout
      obtain ⟨f, s, hfs⟩ := retireData_succeeds (n := fc.consumed - fc.retired) (fc := fc) (ses := ses)
        (by omega) (by omega) (by omega) (by omega)
      simp only [State.stopSending, bind, Except.bind, hfs]
      exact ⟨_, rfl⟩
    | dataRecvd fc buf =>
      obtain ⟨b1, b2, b3, b4, b5⟩ := hfcb fc rfl
      obtain ⟨⟨hcon, hadv⟩, hinv, hdl, hret, -⟩ := hst
      simp only [Tr.outstanding] at hout
      obtain ⟨f, s, hfs⟩ := retireData_succeeds (n := fc.consumed - fc.retired) (fc := fc) (ses := ses)
        (by omega) (by omega) (by omega) (by omega)
      simp only [State.stopSending, bind, Except.bind, hfs]
      exact ⟨_, rfl⟩
    | sizeKnownAt fc buf e fs rel =>
      obtain ⟨b1, b2, b3, b4, b5⟩ := hfcb fc rfl
      obtain ⟨⟨hcon, hadv⟩, hinv, hdl, hlt, hle, hfsz, hret, hfs, hend⟩ := hst
      simp only [Tr.outstanding] at hout
      obtain ⟨s, hs⟩ := finishReset_succeeds (st := .sizeKnownAt fc buf e fs rel) (ses := ses) (fs := fs)
        (err := e) (a := buf.received) (b := buf.retired) (.inl ⟨_, _, _, _, rfl⟩)
        (by omega) (by omega) (by omega) (by omega) (by omega)
      simp only [State.stopSending, bind, Except.bind, hs]
      exact ⟨_, rfl⟩
    | _ => exact ⟨_, rfl⟩
  | write fits now rtt =>
    simp only [Tr.step]
    cases st with
    | recv fc buf =>
      obtain ⟨r, hr⟩ := write_succeeds (hlf fc buf rfl) fits now rtt maxLocalMaxStreamData
      simp only [State.writeFrame, bind, Except.bind, hr]
      exact ⟨_, rfl⟩
    | abortReading fc fsr fn e a b =>
      simp only [State.writeFrame]
      by_cases h0 : (fn && fits) = true
      · rw [if_pos h0]; exact ⟨_, rfl⟩
      · rw [if_neg h0]; exact ⟨_, rfl⟩
    | _ => exact ⟨_, rfl⟩
  | stopSendingAcked => exact ⟨_, rfl⟩
  | stopSendingLost => exact ⟨_, rfl⟩
  | maxStreamDataLost l => exact ⟨_, rfl⟩
  | peerBlocked => exact ⟨_, rfl⟩
  | setWindow w => exact ⟨_, rfl⟩

/-! ## Connection-wide limits -/

structure SOk (c : Conn) : Prop where
  ok : COk c
  ses : FcOk c.ses
  lim : ∀ t ∈ c.streams, LimOk t
  mono : Mono c.advertised
  smono : ∀ t ∈ c.streams, Mono t.advertised

theorem sok_new {m : Nat} (h : m ≤ 2 ^ 62 - 1) : SOk (Conn.new m) :=
  ⟨cok_new m, fcOk_new h, by simp [Conn.new], by simp [Conn.new, Mono], by simp [Conn.new]⟩

theorem SOk.fit {c : Conn} (h : SOk c) {t : Tr} (ht : t ∈ c.streams) : Fit t c.ses := by
  refine ⟨h.ok.str t ht, h.lim t ht, ?_, h.ses⟩
  have h1 := le_sumBy Tr.outstanding ht
  have h2 := h.ok.con
  have h3 := h.ok.ret
  omega

theorem write_adv {t t' : Tr} {ses ses' : RFc} {op : Op} {o : Out}
    (hs : t.step ses op = .ok (t', ses', o)) :
    t'.advertised = t.advertised ∨ ∃ l, t'.advertised = l :: t.advertised := by
  rcases step_adv hs with ⟨fits, now, rtt, rfl⟩ | h
  · simp only [Tr.step, Except.bind_eq_ok, Except.pure_eq_ok] at hs
    obtain ⟨⟨st1, f⟩, hf, hw⟩ := hs
    cases hw
    simp only
    split
    · exact .inr ⟨_, rfl⟩
    · exact .inl rfl
  · exact .inl h

theorem sok_step {c c' : Conn} {op : COp} {o : Out} (h : SOk c) (hsane : Sane c op)
    (hs : c.step op = .ok (c', o)) : SOk c' := by
  have hok := cstep_ok h.ok hs
  cases op with
  | newStream m =>
    cases hs
    refine ⟨hok, h.ses, ?_, h.mono, ?_⟩
    · intro t ht
      simp only [List.mem_append, List.mem_singleton] at ht
      rcases ht with ht | rfl
      · exact h.lim t ht
      · exact limOk_new hsane
    · intro t ht
      simp only [List.mem_append, List.mem_singleton] at ht
      rcases ht with ht | rfl
      · exact h.smono t ht
      · simp [Tr.new, Mono]
  | onStream i op =>
    simp only [Conn.step] at hs
    split at hs
    · cases hs; exact h
    · rename_i t ht
      simp only [Except.bind_eq_ok, Except.pure_eq_ok] at hs
      obtain ⟨⟨t', ses', o'⟩, hstep, hs⟩ := hs
      cases hs
      have hm : t ∈ c.streams := List.mem_of_getElem? ht
      have hfit := h.fit hm
      obtain ⟨h1, dc, dr, ha, hhi, hout, hlim⟩ := step_ok (h.ok.str t hm) hstep
      have hk : KeepsWindow t op := by
        intro w fc buf he hst
        subst he
        exact hsane t fc buf ht hst
      obtain ⟨l1, l2⟩ := limOk_step hfit.str hfit.lim hk hstep
      refine ⟨hok, ?_, ?_, h.mono, ?_⟩
      · have h2 := hok.con
        have h3 := hok.ret
        simp only at h2 h3
        have a1 := ha.con
        have a2 := ha.ret
        have := h.ses.con
        apply h.ses.adj ha
        · omega
        · by_cases hp : 0 < dc
          · exact (hlim hp).1
          · omega
      · intro x hx
        rcases set_mem hx with hx | rfl
        · exact h.lim x hx
        · exact l1
      · intro x hx
        rcases set_mem hx with hx | rfl
        · exact h.smono x hx
        · rcases write_adv hstep with he | ⟨l, he⟩
          · rw [he]; exact h.smono t hm
          · rw [he]
            refine mono_cons (h.smono t hm) (fun y hy => l2 y l hy (by rw [he]; rfl))
  | write fits now rtt =>
    simp only [Conn.step, Except.bind_eq_ok, Except.pure_eq_ok] at hs
    obtain ⟨⟨ses', l⟩, hw, hs⟩ := hs
    cases hs
    obtain ⟨k1, k2⟩ := h.ses.write hw
    obtain ⟨_, _, _, h4⟩ := write_ok hw
    refine ⟨hok, k1, h.lim, ?_, h.smono⟩
    cases l with
    | none => exact h.mono
    | some l =>
      refine mono_cons h.mono (fun y hy => ?_)
      rw [h.ok.adv] at hy
      cases hy
      simp only at h4
      omega
  | maxDataLost l =>
    cases hs
    exact ⟨hok, h.ses.frameLost l, h.lim, h.mono, h.smono⟩
  | peerBlocked =>
    cases hs
    exact ⟨hok, h.ses.sendFlowcUpdate, h.lim, h.mono, h.smono⟩

theorem sok_run {c c' : Conn} {ops : List COp} {os : List Out} (h : SOk c) (hs : SaneRun c ops)
    (hr : c.run ops = .ok (c', os)) : SOk c' := by
  induction ops generalizing c os with
  | nil => cases hr; exact h
  | cons op ops ih =>
    simp only [Conn.run, Except.bind_eq_ok, Except.pure_eq_ok] at hr
    obtain ⟨⟨c1, o⟩, h1, ⟨c2, os2⟩, h2, hr⟩ := hr
    cases hr
    exact ih (sok_step h hs.1 h1) (hs.2 _ _ h1) h2

end Neqo.RecvS
