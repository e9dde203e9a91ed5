import Verif.Recovery.PropsFlight

/-! # C31 and C32: the probe timeout -/
namespace Neqo.Rec

variable {m : Nat} {h h' : Hist} {e : Ev} {o : Out}

/-! ## The period -/

theorem ptoPeriod_eq (base count f : Nat) : ptoPeriod base count f = probePeriod base count f := by
  unfold ptoPeriod probePeriod maxDuration
  have e1 : base * (f * 2 ^ Nat.min count 24) = base * f * 2 ^ min count 24 := (Nat.mul_assoc _ _ _).symm
  simp only [e1]
  generalize base * f * 2 ^ min count 24 = x
  by_cases hx : x < 2 ^ 64 * 1000000000
  · rw [if_pos (by omega), if_pos hx]
  · rw [if_neg (by omega), if_neg hx]

theorem period_eq (h : Hist) : h.s.ptoPeriod = h.period := by
  unfold Sys.ptoPeriod Hist.period
  rw [ptoPeriod_eq]
  rfl

/-- C31: with the default settings the period is the one of RFC 9002, doubled for each consecutive timeout, at most 24
times, unless it would be about 584 years or more. -/
theorem C31_period_doubles (base count : Nat) (hb : base * 100 * 2 ^ min count 24 < 2 ^ 64 * 1000000000) :
    probePeriod base count 100 = base * 2 ^ min count 24 := by
  unfold probePeriod
  rw [if_pos hb, Nat.mul_assoc base, Nat.mul_comm 100, ← Nat.mul_assoc, Nat.mul_div_cancel _ (by decide)]

/-- C31: each timeout doubles the period, up to one nanosecond, whatever the percentage. -/
theorem C31_next_period (base count f : Nat) (hc : count < 24) (hb : base * f * 2 ^ (count + 1) < 2 ^ 64 * 1000000000) :
    2 * probePeriod base count f ≤ probePeriod base (count + 1) f ∧ probePeriod base (count + 1) f ≤ 2 * probePeriod base count f + 1 := by
  have e1 : min count 24 = count := by omega
  have e2 : min (count + 1) 24 = count + 1 := by omega
  have e3 : base * f * 2 ^ (count + 1) = 2 * (base * f * 2 ^ count) := by rw [Nat.pow_succ, ← Nat.mul_assoc, Nat.mul_comm]
  unfold probePeriod
  rw [e1, e2, if_pos (by omega), if_pos hb, e3]
  omega

/-- C31: the period stops growing after 24 timeouts. -/
theorem C31_period_cap (base count f : Nat) (hc : 24 ≤ count) : probePeriod base count f = probePeriod base 24 f := by
  unfold probePeriod
  rw [show min count 24 = min 24 24 by omega]

example : (List.range 4).map (fun n => probePeriod 300000000 n 100) = [300000000, 600000000, 1200000000, 2400000000] := by decide

/-! ## When the timer fires -/

theorem ptoTime_eq {s : Sys} {id : SpaceId} {t : Nat} (h : s.ptoTime id = .ok (some t)) :
    ∃ sp b, s.spaces id = some sp ∧ sp.lastEliciting = some b ∧ t = b + s.ptoPeriod ∧ (sp.id = .app → 0 < sp.inFlight) := by
  unfold Sys.ptoTime at h
  split at h
  · injection h with h; cases h
  · rename_i sp hs
    unfold Space.ptoBase at h
    by_cases hfl : sp.inFlight > 0
    · rw [if_pos hfl] at h
      cases hle : sp.lastEliciting with
      | none => rw [hle] at h; cases h
      | some b =>
        rw [hle] at h
        injection h with h
        injection h with h
        exact ⟨sp, b, hs, hle, h.symm, fun _ => hfl⟩
    · rw [if_neg hfl] at h
      by_cases hid : sp.id = .app
      · rw [if_pos hid] at h
        injection h with h
        cases h
      · rw [if_neg hid] at h
        cases hle : sp.lastEliciting with
        | none => rw [hle] at h; injection h with h; cases h
        | some b =>
          rw [hle] at h
          injection h with h
          injection h with h
          exact ⟨sp, b, hs, hle, h.symm, fun hc => absurd hc hid⟩

/-- The parts of a timeout. -/
theorem Reached.timeout (hr : Reached m h) {now : Nat} {k : Bool} (hl : Legal m h (.timeout now k)) (hs : h.step (.timeout now k) = .ok (h', o)) :
    ∃ s₁, Core m now h.next h.clean 0 s₁ ∧ Moves h.next h.s [] o.lost [] s₁ ∧ TOut now allSpaces h.s o.lost s₁ ∧ FOut now s₁ o.probes h'.s ∧
      Moves h.next s₁ [] [] o.probes h'.s ∧ s₁.ptoPeriod = h.period ∧ s₁.ptoCount = h.s.ptoCount ∧ s₁.cc.mtu = h.s.cc.mtu ∧ h'.probed = h.probed ++ o.probes.map Pkt.key := by
  obtain ⟨s', h1, rfl⟩ := Hist.step_ok hs
  have hi := hr.inv
  obtain ⟨r, hr', e1⟩ := map_eq_ok h1
  obtain ⟨sm, g1, g2, g3, g4, g5⟩ := hi.core.onTimeout_out hi.stats hl hr'
  injection e1 with e1 e2
  subst e1 e2
  refine ⟨sm, g1, g2, g3, g4, g5, ?_, ?_, g3.mtu, rfl⟩
  · rw [← period_eq]
    unfold Sys.ptoPeriod Sys.ptoCount
    rw [g3.rtt, g3.conf, g3.fast, g3.pto]
  · unfold Sys.ptoCount
    rw [g3.pto]

/-- The last ack-eliciting packet was not sent before any other. -/
theorem Reached.lastElicited_ge (hr : Reached m h) {id : SpaceId} {p : Pkt} (hp : p ∈ h.sent) (hid : p.pt.space = id) (hel : p.eliciting = true) :
    ∃ t, lastElicited h.sent id = some t ∧ p.sent ≤ t := by
  induction hr with
  | new _ _ => cases hp
  | @step h h' e o hr hl hs ih =>
    obtain ⟨s', h1, rfl⟩ := Hist.step_ok hs
    have hp' : p ∈ h.sent ++ e.pkt := hp
    show ∃ t, lastElicited (h.sent ++ e.pkt) id = some t ∧ p.sent ≤ t
    rcases e.pkt_cases with e0 | ⟨q, e0, _, e2⟩
    · rw [e0, List.append_nil] at hp' ⊢
      exact ih hp'
    · have hf := hl.fresh q (by rw [e0]; exact List.mem_singleton.mpr rfl)
      rw [e0] at hp' ⊢
      rw [lastElicited_snoc]
      rcases List.mem_append.mp hp' with hp' | hp'
      · split
        · exact ⟨q.sent, rfl, Nat.le_trans (hr.inv.sentTime p hp') hf.2⟩
        · exact ih hp'
      · rw [List.mem_singleton] at hp'
        subst hp'
        rw [if_pos ⟨hid, hel⟩]
        exact ⟨_, rfl, Nat.le_refl _⟩

/-- C31: on a timeout the count of consecutive timeouts stays, or it goes up by one; that only happens if in some space
at least the probe period has passed since each ack-eliciting packet was sent; if this is the application space,
an ack-eliciting packet is still tracked. -/
theorem C31_not_early (hr : Reached m h) {now : Nat} {k : Bool} (hl : Legal m h (.timeout now k)) (hs : h.step (.timeout now k) = .ok (h', o)) :
    h'.s.ptoCount = h.s.ptoCount ∨
    (h'.s.ptoCount = h.s.ptoCount + 1 ∧ ∃ id, (∀ p ∈ h.sent, p.pt.space = id → p.eliciting = true → p.sent + h.period ≤ now) ∧
      (id = .app → ∃ p ∈ h.tracked .app, p.eliciting = true)) := by
  obtain ⟨s₁, g1, gm, g3, g4, g5, e1, e2, e3, _⟩ := hr.timeout hl hs
  have hi := hr.inv
  rcases g4.cases with ⟨_, _, c3, _⟩ | ⟨due, pt, sc, c1, c2, c3, c4, c5, c6, c7⟩
  · refine .inl ?_
    rw [← e2]
    unfold Sys.ptoCount
    rw [c3]
  · refine .inr ⟨?_, ?_⟩
    · rw [← e2, ← c6]
      unfold Sys.ptoCount
      rw [c5]
    · obtain ⟨id, hid⟩ := List.exists_mem_of_ne_nil due c3
      obtain ⟨t, ht, hle⟩ := (c4 id).mp hid
      obtain ⟨sp, b, q1, q2, q3, q4⟩ := ptoTime_eq ht
      refine ⟨id, ?_, ?_⟩
      · intro p hp hpid hel
        have htm := g3.times id
        rw [q1] at htm
        cases hsp : h.s.spaces id with
        | none => rw [hsp] at htm; cases htm
        | some sp₀ =>
          rw [hsp] at htm
          simp only [Option.map_some, Option.some.injEq] at htm
          have hl1 := (hi.le id sp₀ hsp).1
          -- the last ack-eliciting packet was not sent before `p`
          have hlast : ∃ t, lastElicited h.sent id = some t ∧ p.sent ≤ t := hr.lastElicited_ge hp hpid hel
          obtain ⟨t', ht1, ht2⟩ := hlast
          have := hl1 t' ht1
          rw [← htm, q2] at this
          injection this with this
          rw [e1] at q3
          omega
      · intro happ
        have hfl := q4 (by rw [(g1.sp id sp q1).sid]; exact happ)
        rw [(g1.sp id sp q1).inFl] at hfl
        unfold countEliciting at hfl
        obtain ⟨q, hq⟩ := List.exists_mem_of_length_pos hfl
        obtain ⟨hq1, hq2⟩ := List.mem_filter.mp hq
        rw [← pkts_some q1] at hq1
        subst happ
        rcases gm.evol .app q hq1 with ⟨p, hp, ev⟩ | hge
        · exact ⟨p, hp, by rw [← ev.eliciting]; exact hq2⟩
        · exact absurd (g1.below _ q hq1) (by omega)

/-- C31: on a timeout, if the probe period has passed since the last ack-eliciting packet of a space was sent, and an
ack-eliciting packet is still tracked there, then the timer fires. -/
theorem C31_fires_when_due (hr : Reached m h) {now : Nat} {k : Bool} (hl : Legal m h (.timeout now k)) (hs : h.step (.timeout now k) = .ok (h', o))
    {id : SpaceId} {t : Nat} (ht : lastElicited h.sent id = some t) (hd : t + h.period ≤ now) (hp : ∃ p ∈ h'.tracked id, p.eliciting = true) :
    h'.s.ptoCount = h.s.ptoCount + 1 := by
  obtain ⟨s₁, g1, gm, g3, g4, g5, e1, e2, e3, _⟩ := hr.timeout hl hs
  have hi := hr.inv
  obtain ⟨p, hp, hel⟩ := hp
  rcases g4.cases with ⟨c1, c2, c3, c4⟩ | ⟨due, pt, sc, c1, c2, c3, c4, c5, c6, c7⟩
  · exfalso
    refine c4 id ?_
    have hp : p ∈ h'.s.pkts id := hp
    cases hsp : s₁.spaces id with
    | none => unfold Sys.pkts at hp; rw [c2, hsp] at hp; cases hp
    | some sp =>
      have hps : p ∈ sp.pkts := by unfold Sys.pkts at hp; rw [c2, hsp] at hp; exact hp
      have htm := g3.times id
      rw [hsp] at htm
      cases hsp₀ : h.s.spaces id with
      | none => rw [hsp₀] at htm; cases htm
      | some sp₀ =>
        rw [hsp₀] at htm
        simp only [Option.map_some, Option.some.injEq] at htm
        have hle : sp.lastEliciting = some t := htm.trans ((hi.le id sp₀ hsp₀).1 t ht)
        have hfl : sp.inFlight > 0 := by
          rw [(g1.sp id sp hsp).inFl]
          unfold countEliciting
          exact List.length_pos_of_mem (List.mem_filter.mpr ⟨hps, hel⟩)
        refine ⟨t + s₁.ptoPeriod, ?_, by rw [e1]; exact hd⟩
        unfold Sys.ptoTime
        rw [hsp]
        unfold Space.ptoBase
        simp only
        rw [if_pos hfl, hle]
        rfl
  · rw [← e2, ← c6]
    unfold Sys.ptoCount
    rw [c5]

/-! ## How many probes -/

/-- The probes still allowed. -/
def Sys.left (s : Sys) : Nat :=
  match s.pto with
  | none => 0
  | some p => p.packets

theorem left_some {s : Sys} {p : Pto} (h : s.pto = some p) : s.left = p.packets := by unfold Sys.left; rw [h]
theorem left_none {s : Sys} (h : s.pto = none) : s.left = 0 := by unfold Sys.left; rw [h]
theorem left_congr {s s' : Sys} (h : s'.pto = s.pto) : s'.left = s.left := by unfold Sys.left; rw [h]
theorem count_congr {s s' : Sys} (h : s'.pto = s.pto) : s'.ptoCount = s.ptoCount := by unfold Sys.ptoCount; rw [h]
theorem count_none {s : Sys} (h : s.pto = none) : s.ptoCount = 0 := by unfold Sys.ptoCount; rw [h]
theorem count_some {s : Sys} {p : Pto} (h : s.pto = some p) : s.ptoCount = p.count := by unfold Sys.ptoCount; rw [h]

theorem onSent_pto {s s' : Sys} {p : Pkt} {on : Option Nat} (h : s.onSent p on = .ok s') : s'.pto = s.pto.map (Pto.sent · p.pt.space) := by
  unfold Sys.onSent at h
  simp only at h
  split at h
  · injection h with h
    rw [← h]
  · split at h
    · cases h
    · injection h with h
      rw [← h]
      unfold Sys.setSpace Sys.pathSent
      cases on <;> rfl

theorem onSent_count {s s' : Sys} {p : Pkt} {on : Option Nat} (h : s.onSent p on = .ok s') : s'.ptoCount = s.ptoCount ∧ s'.left = s.left := by
  have := onSent_pto h
  cases hp : s.pto with
  | none =>
    rw [hp] at this
    rw [count_none this, count_none hp, left_none this, left_none hp]
    exact ⟨rfl, rfl⟩
  | some x =>
    rw [hp] at this
    rw [count_some this, count_some hp, left_some this, left_some hp]
    simp only
    unfold Pto.sent
    split <;> exact ⟨rfl, rfl⟩

theorem drop0rtt_pto {s : Sys} {now : Nat} {r} (h : s.drop0rtt now = .ok r) : r.1.pto = s.pto := by
  unfold Sys.drop0rtt at h
  split at h
  · injection h with h; rw [← h]
  · split at h
    · injection h with h; rw [← h]
    · split at h
      · cases h
      · rename_i s₁ hd
        injection h with h
        rw [← h]
        exact (discardAll_spaces hd).2.1

theorem retry_pto {s : Sys} {now : Nat} {r} (h : s.retry now = .ok r) : r.1.pto = none := by
  unfold Sys.retry at h
  simp only at h
  split at h
  · cases h
  · rename_i s₁ hd
    injection h with h
    rw [← h]
    exact (discardAll_spaces hd).2.1

theorem confirm_pto {s s' : Sys} {now : Nat} (hp : s.pto = none) (h : s.confirm now = .ok s') : s'.pto = none ∨ ∃ p, s'.pto = some p ∧ p.count = 1 ∧ p.packets = 2 := by
  unfold Sys.confirm at h
  split at h
  · cases h
  · simp only at h
    split at h
    · cases h
    · injection h with h; rw [← h]; exact .inl hp
    · split at h
      · unfold Sys.firePto at h
        simp only at h
        split at h
        · rw [hp] at h
          simp only at h
          injection h with h
          rw [← h]
          exact .inr ⟨_, rfl, rfl, rfl⟩
        · cases h
      · injection h with h; rw [← h]; exact .inl hp

theorem discardSpace_pto {s s' : Sys} {id : SpaceId} {now : Nat} (h : s.discardSpace id now = .ok s') : s'.pto = none ∨ ∃ p, s'.pto = some p ∧ p.count = 1 ∧ p.packets = 2 := by
  unfold Sys.discardSpace at h
  split at h
  · cases h
  · split at h
    · cases h
    · split at h
      · cases h
      · simp only at h
        split at h
        · refine confirm_pto ?_ h
          rfl
        · injection h with h; rw [← h]; exact .inl rfl

theorem sendProfile_count {s : Sys} {amp : Nat} {pace : Bool} {r} (h : s.sendProfile amp pace = .ok r) :
    r.1.ptoCount = s.ptoCount ∧ r.1.left + (if r.2.pto then 1 else 0) ≤ s.left := by
  unfold Sys.sendProfile at h
  simp only at h
  cases hp : s.pto with
  | none =>
    rw [hp] at h
    simp only [Option.any_none, Bool.false_eq_true, if_false] at h
    split at h
    · split at h
      all_goals
        injection h with h; rw [← h]; exact ⟨rfl, Nat.le_refl _⟩
    · split at h
      · split at h
        · injection h with h; rw [← h]; exact ⟨rfl, Nat.le_refl _⟩
        · cases h
      · injection h with h; rw [← h]; exact ⟨rfl, Nat.le_refl _⟩
  | some x =>
    rw [hp] at h
    simp only [Option.any_some] at h
    split at h
    · rename_i hx
      simp only [decide_eq_true_eq] at hx
      split at h
      · injection h with h
        rw [← h, left_some hp, count_some hp]
        refine ⟨rfl, ?_⟩
        show x.packets - 1 + 1 ≤ x.packets
        omega
      · cases h
    · split at h
      · split at h
        all_goals
          injection h with h; rw [← h]; exact ⟨rfl, Nat.le_refl _⟩
      · split at h
        · split at h
          · injection h with h; rw [← h]; exact ⟨rfl, Nat.le_refl _⟩
          · cases h
        · injection h with h; rw [← h]; exact ⟨rfl, Nat.le_refl _⟩

/-- What a call does to the count of timeouts and the probes allowed. -/
theorem Reached.pto_step (hr : Reached m h) (hl : Legal m h e) (hs : h.step e = .ok (h', o)) :
    (h'.s.ptoCount = h.s.ptoCount ∨ h'.s.ptoCount = 0 ∨ Fires h e h') ∧ (o.acked ≠ [] → h'.s.ptoCount = 0) ∧
    h'.s.left + (if o.probe then 1 else 0) ≤ h.s.left + 2 * (if Fires h e h' then 1 else 0) := by
  have hi := hr.inv
  have keep : ∀ {h' : Hist} {o : Out}, h'.s.ptoCount = h.s.ptoCount → h'.s.left ≤ h.s.left → o.acked = [] → o.probe = false →
      (h'.s.ptoCount = h.s.ptoCount ∨ h'.s.ptoCount = 0 ∨ Fires h e h') ∧ (o.acked ≠ [] → h'.s.ptoCount = 0) ∧
      h'.s.left + (if o.probe then 1 else 0) ≤ h.s.left + 2 * (if Fires h e h' then 1 else 0) := by
    intro h' o e1 e2 e3 e4
    refine ⟨.inl e1, fun hc => absurd e3 hc, ?_⟩
    rw [e4]
    simp only [Bool.false_eq_true, if_false]
    omega
  cases e with
  | send p on =>
    obtain ⟨s', h1, rfl⟩ := Hist.step_ok hs
    obtain ⟨r, hr', e1⟩ := map_eq_ok h1
    injection e1 with e1 e2
    subst e1 e2
    obtain ⟨c1, c2⟩ := onSent_count hr'
    exact keep c1 (Nat.le_of_eq c2) rfl rfl
  | ack id rs i now =>
    obtain ⟨s', h1, rfl⟩ := Hist.step_ok hs
    obtain ⟨s₁, lost, a1, a2, a3, a4, a5, a6⟩ := hi.core.onAck hi.stats (id := id) (i := i) hl.1 hl.2.1 hl.2.2
    obtain ⟨r, hr', e1⟩ := map_eq_ok h1
    rw [a1] at hr'
    injection hr' with hr'
    subst hr'
    injection e1 with e1 e2
    subst e1 e2
    cases hack : ackedPkts (h.s.pkts id) rs with
    | nil =>
      have := (a6 hack).2.2
      exact keep (count_congr this) (Nat.le_of_eq (left_congr this)) rfl rfl
    | cons top rest =>
      cases hsp : h.s.spaces id with
      | none => rw [pkts_none hsp] at hack; cases hack
      | some sp =>
        have hack' := hack
        rw [pkts_some hsp] at hack'
        obtain ⟨_, _, _, _, _, _, _, _, hn, _⟩ := a5 sp top rest hsp hack'
        refine ⟨.inr (.inl (count_none hn)), fun _ => count_none hn, ?_⟩
        show s₁.left + 0 ≤ _
        rw [left_none hn]
        omega
  | timeout now hk =>
    obtain ⟨s₁, g1, gm, g3, g4, g5, e1, e2, e3, _⟩ := hr.timeout hl hs
    have hout : o.acked = [] ∧ o.probe = false := by
      obtain ⟨s', h1, _⟩ := Hist.step_ok hs
      obtain ⟨r, hr', e1⟩ := map_eq_ok h1
      injection e1 with e1 e2
      rw [← e2]
      exact ⟨rfl, rfl⟩
    rcases g4.cases with ⟨_, _, c3, _⟩ | ⟨due, pt, sc, c1, c2, c3, c4, c5, c6, c7⟩
    · have : h'.s.pto = h.s.pto := c3.trans g3.pto
      exact keep (count_congr this) (Nat.le_of_eq (left_congr this)) hout.1 hout.2
    · have hcount : h'.s.ptoCount = h.s.ptoCount + 1 := by rw [count_some c5, c6, e2]
      have hf : Fires h (.timeout now hk) h' := by
        show h'.s.ptoCount ≠ h.s.ptoCount
        omega
      refine ⟨.inr (.inr hf), fun hc => absurd hout.1 hc, ?_⟩
      rw [hout.2, if_pos hf, left_some c5, c7]
      simp only [Bool.false_eq_true, if_false, maxPtoPackets]
      omega
  | retry now =>
    obtain ⟨s', h1, rfl⟩ := Hist.step_ok hs
    obtain ⟨r, hr', e1⟩ := map_eq_ok h1
    injection e1 with e1 e2
    subst e1 e2
    have := retry_pto hr'
    refine ⟨.inr (.inl (count_none this)), (fun hc => absurd rfl hc), ?_⟩
    show r.1.left + 0 ≤ _
    rw [left_none this]
    omega
  | drop0rtt now =>
    obtain ⟨s', h1, rfl⟩ := Hist.step_ok hs
    obtain ⟨r, hr', e1⟩ := map_eq_ok h1
    injection e1 with e1 e2
    subst e1 e2
    have := drop0rtt_pto hr'
    exact keep (count_congr this) (Nat.le_of_eq (left_congr this)) rfl rfl
  | discard id now =>
    obtain ⟨s', h1, rfl⟩ := Hist.step_ok hs
    obtain ⟨r, hr', e1⟩ := map_eq_ok h1
    injection e1 with e1 e2
    subst e1 e2
    rcases discardSpace_pto hr' with hn | ⟨p, hp, c1, c2⟩
    · refine ⟨.inr (.inl (count_none hn)), (fun hc => absurd rfl hc), ?_⟩
      show r.left + 0 ≤ _
      rw [left_none hn]
      omega
    · generalize hh : ({ s := r, clock := _, next := _, sent := _, acked := _, lost := _, probed := _, dropped := _, clean := _ } : Hist) = h'
      have hrs : h'.s = r := by rw [← hh]
      have hf : Fires h (.discard id now) h' := by
        show h'.s.ptoCount ≠ 0
        rw [hrs, count_some hp, c1]
        decide
      refine ⟨.inr (.inr hf), (fun hc => absurd rfl hc), ?_⟩
      rw [if_pos hf, hrs, left_some hp, c2]
      show 2 + 0 ≤ _
      omega
  | addPath rtt mtu =>
    injection hs with hs
    injection hs with e1 e2
    subst e1 e2
    exact keep rfl (Nat.le_refl _) rfl rfl
  | migrate i =>
    injection hs with hs
    injection hs with e1 e2
    subst e1 e2
    have : (h.s.switchPath i).clearPrimary.pto = h.s.pto := (switchPath_spaces h.s i).2
    exact keep (count_congr this) (Nat.le_of_eq (left_congr this)) rfl rfl
  | peerMigrate i =>
    injection hs with hs
    injection hs with e1 e2
    subst e1 e2
    have : (h.s.switchPath i).pto = h.s.pto := (switchPath_spaces h.s i).2
    exact keep (count_congr this) (Nat.le_of_eq (left_congr this)) rfl rfl
  | setMtu mtu =>
    injection hs with hs
    injection hs with e1 e2
    subst e1 e2
    exact keep rfl (Nat.le_refl _) rfl rfl
  | setAckDelay d =>
    injection hs with hs
    injection hs with e1 e2
    subst e1 e2
    exact keep rfl (Nat.le_refl _) rfl rfl
  | profile amp pace =>
    obtain ⟨s', h1, rfl⟩ := Hist.step_ok hs
    obtain ⟨r, hr', e1⟩ := map_eq_ok h1
    injection e1 with e1 e2
    subst e1 e2
    obtain ⟨c1, c2⟩ := sendProfile_count hr'
    refine ⟨.inl c1, (fun hc => absurd rfl hc), ?_⟩
    show r.1.left + (if r.2.pto then 1 else 0) ≤ _
    omega

/-- C31: an acknowledgement of anything resets the backoff. -/
theorem C31_ack_resets (hr : Reached m h) (hl : Legal m h e) (hs : h.step e = .ok (h', o)) (ha : o.acked ≠ []) : h'.s.ptoCount = 0 :=
  (hr.pto_step hl hs).2.1 ha

/-- C31: only timeouts back off further: any call leaves the count of timeouts as it is, resets it, or is one in which
the probe timer fires. -/
theorem C31_only_timeouts (hr : Reached m h) (hl : Legal m h e) (hs : h.step e = .ok (h', o)) :
    h'.s.ptoCount = h.s.ptoCount ∨ h'.s.ptoCount = 0 ∨ Fires h e h' := (hr.pto_step hl hs).1

theorem Reached.of_run (hr : Reached m h) {f n : Nat} (h1 : Run m h f n h') : Reached m h' := by
  induction h1 with
  | refl => exact hr
  | step _ hl hs ih => exact .step ih hl hs

theorem Reached.run_left (hr : Reached m h) {f n : Nat} (h1 : Run m h f n h') : h'.s.left + n ≤ h.s.left + 2 * f := by
  induction h1 with
  | refl => omega
  | step h1 hl hs ih =>
    have := ((hr.of_run h1).pto_step hl hs).2.2
    split at this <;> rename_i c1 <;> split at this <;> rename_i c2
    all_goals
      simp only [c1, c2, if_true, if_false, Bool.false_eq_true]
      omega

theorem Reached.left_le (hr : Reached m h) : h.s.left ≤ 2 := by
  induction hr with
  | new _ _ => exact Nat.zero_le _
  | @step h h' e o hr hl hs ih =>
    have := (hr.pto_step hl hs).2.2
    have hi := hr.inv
    by_cases hf : Fires h e h'
    · cases e with
      | timeout now hk =>
        obtain ⟨s₁, g1, gm, g3, g4, _⟩ := hr.timeout hl hs
        rcases g4.cases with ⟨_, _, c3, _⟩ | ⟨due, pt, sc, c1, c2, c3, c4, c5, c6, c7⟩
        · rw [left_congr (c3.trans g3.pto)]; exact ih
        · rw [left_some c5, c7]; exact Nat.le_refl _
      | discard id now =>
        obtain ⟨s', h1, rfl⟩ := Hist.step_ok hs
        obtain ⟨r, hr', e1⟩ := map_eq_ok h1
        injection e1 with e1 e2
        subst e1 e2
        show r.left ≤ 2
        rcases discardSpace_pto hr' with hn | ⟨p, hp, c1, c2⟩
        · rw [left_none hn]; decide
        · rw [left_some hp, c2]; exact Nat.le_refl _
      | _ => exact hf.elim
    · rw [if_neg hf] at this
      omega

/-- C31: during any part of a history the datagrams allowed because of probe timeouts are at most two for each time the
timer fires in it, and two left over from before. -/
theorem C31_at_most_two (hr : Reached m h) {f n : Nat} (h1 : Run m h f n h') : n ≤ 2 * (f + 1) := by
  have := hr.run_left h1
  have := hr.left_le
  omega

/-- C31: counted from the start of the connection there are none left over. -/
theorem C31_at_most_two_from_start {fastPto initialRtt mtu : Nat} {alg : Alg} {spurious : Bool} (hm : 256 < m) (hmtu : m ≤ mtu) {f n : Nat}
    (h1 : Run m (.new fastPto initialRtt mtu alg spurious) f n h') : n ≤ 2 * f := by
  have := (Reached.new (alg := alg) (spurious := spurious) (fastPto := fastPto) (initialRtt := initialRtt) hm hmtu).run_left h1
  have e : (Hist.new fastPto initialRtt mtu alg spurious).s.left = 0 := rfl
  omega

/-- Three packets are sent and two timeouts pass, each followed by three sending opportunities. -/
def exPto : Option Hist :=
  Hist.run 1200 (.new 100 100000000 1200 .cubic true)
    [.send (exPkt 0 0) none, .send (exPkt 1 10) none, .send (exPkt 2 20) none, .timeout 300000020 true, .profile 100000 false, .profile 100000 false,
     .profile 100000 false, .timeout 900000020 true]
example : (exPto.map fun h => (h.s.ptoCount, h.s.left, h.period, h.probed)) = some (2, 2, 1200000000, [(.app, 0), (.app, 1)]) := by decide +kernel
example : (exPto.bind fun h => (h.run 1200 [.ack .app [(2, 2)] {} 1000000000]).map fun h => (h.s.ptoCount, h.s.left)) = some (0, 0) := by decide +kernel
/-- The timer does not fire one nanosecond too early. -/
example : (Hist.run 1200 (.new 100 100000000 1200 .cubic true) [.send (exPkt 0 0) none, .send (exPkt 2 20) none, .timeout 300000019 true]).map (·.s.ptoCount) = some 0 := by
  decide +kernel

/-! ## C32 -/

/-- C32: every packet is handed back for sending again at most once by probe timeouts. -/
theorem C32_at_most_once (hr : Reached m h) : h.probed.Nodup := hr.inv.probedNodup

/-- C32: only packets that are tracked and not lost are handed back. -/
theorem C32_only_outstanding (hr : Reached m h) (hl : Legal m h e) (hs : h.step e = .ok (h', o)) :
    ∀ q ∈ o.probes, (∃ p ∈ h.tracked q.pt.space, p.pn = q.pn ∧ p.lost = none) ∧ q.key ∉ h.acked ∧ q.key ∉ h.lost := by
  intro q hq
  obtain ⟨s', h1, rfl⟩ := Hist.step_ok hs
  have hi := hr.inv
  have f := hi.facts hl h1
  obtain ⟨p, hp, e1, _, e3⟩ := (f.moves.probes q hq).1
  exact ⟨⟨p, hp, e1, e3⟩, (fun hc => hi.acked _ hc p hp e1), (fun hc => hi.lost _ hc p hp e1 e3)⟩

/-- All that is tracked fits in two datagrams. -/
def Fits (h : Hist) : Prop := ((h.tracked .initial ++ h.tracked .handshake ++ h.tracked .app).map (·.len)).sum ≤ 2 * h.s.cc.mtu

instance (h : Hist) : Decidable (Fits h) := by unfold Fits; infer_instance

/-- The histories in which this is so whenever there is a timeout. -/
inductive Fitting (m : Nat) : Hist → Prop
  | new {fastPto initialRtt mtu alg spurious} (hm : 256 < m) (hmtu : m ≤ mtu) : Fitting m (.new fastPto initialRtt mtu alg spurious)
  | step {h₁ h₂ e₁ o₁} : Fitting m h₁ → Legal m h₁ e₁ → ((∃ now k, e₁ = .timeout now k) → Fits h₁) → h₁.step e₁ = .ok (h₂, o₁) → Fitting m h₂

theorem Fitting.reached (hf : Fitting m h) : Reached m h := by
  induction hf with
  | new hm hmtu => exact .new hm hmtu
  | step _ hl _ hs ih => exact .step ih hl hs

theorem readySize_le (ps : List Pkt) : readySize ps ≤ total (·.len) ps := by
  unfold readySize
  induction ps with
  | nil => exact Nat.le_refl _
  | cons p ps ih =>
    rw [total_cons, total_cons]
    split <;> omega

theorem Sub.ack {id : SpaceId} {rs : List (Nat × Nat)} {i : AckIn} {now : Nat} (hi : Inv m h) (hl : Legal m h (.ack id rs i now)) {r}
    (hs : h.s.onAck id rs i now = .ok r) : Sub h.s r.1 := by
  obtain ⟨s₁, lost, a1, a2, a3, a4, a5, a6⟩ := hi.core.onAck hi.stats (id := id) (i := i) hl.1 hl.2.1 hl.2.2
  rw [a1] at hs
  injection hs with hs
  subst hs
  cases hack : ackedPkts (h.s.pkts id) rs with
  | nil => exact .refl (a6 hack).2.1
  | cons top rest =>
    cases hsp : h.s.spaces id with
    | none => rw [pkts_none hsp] at hack; cases hack
    | some sp =>
      rw [pkts_some hsp] at hack
      obtain ⟨ld, cd, sp', b1, _, b3, _, _, _, b7⟩ := a5 sp top rest hsp hack
      refine Sub.space hsp b1 b7 ?_
      rw [b3]
      obtain ⟨c1, c2⟩ := detectedPkts_sub (ackedSpace sp rs top) now ld cd
      have e : (ackedSpace sp rs top).pkts = sp.pkts.filter fun p => !inRanges rs p := by
        unfold ackedSpace keptPkts
        simp only
        split <;> rfl
      rw [e] at c1 c2
      refine ⟨fun q hq => ?_, Nat.le_trans c2 (total_le_filter _ _ _)⟩
      obtain ⟨p, hp, x⟩ := c1 q hq
      exact ⟨p, (List.mem_filter.mp hp).1, x⟩

/-- Only a timeout marks packets as handed back. -/
theorem Inv.flags (hi : Inv m h) (hl : Legal m h e) (hs : h.step e = .ok (h', o)) (he : ∀ now k, e ≠ .timeout now k) :
    ∀ id, ∀ q ∈ h'.s.pkts id, q.pto = true → ∃ p ∈ h.s.pkts id, q.pt = p.pt ∧ q.pn = p.pn ∧ p.pto = true := by
  have sub : ∀ s' : Sys, (∀ id, ∀ q ∈ s'.pkts id, ∃ p ∈ h.s.pkts id, q.pt = p.pt ∧ q.pn = p.pn ∧ q.pto = p.pto) →
      ∀ id, ∀ q ∈ s'.pkts id, q.pto = true → ∃ p ∈ h.s.pkts id, q.pt = p.pt ∧ q.pn = p.pn ∧ p.pto = true := by
    intro s' hh id q hq ht
    obtain ⟨p, hp, e1, e2, e3⟩ := hh id q hq
    exact ⟨p, hp, e1, e2, by rw [← e3]; exact ht⟩
  have same : ∀ s' : Sys, (∀ id, ∀ q ∈ s'.pkts id, q ∈ h.s.pkts id) →
      ∀ id, ∀ q ∈ s'.pkts id, q.pto = true → ∃ p ∈ h.s.pkts id, q.pt = p.pt ∧ q.pn = p.pn ∧ p.pto = true :=
    fun s' hh => sub s' fun id q hq => ⟨q, hh id q hq, rfl, rfl, rfl⟩
  obtain ⟨s', h1, rfl⟩ := Hist.step_ok hs
  cases e with
  | send p on =>
    obtain ⟨r, hr', e1⟩ := map_eq_ok h1
    injection e1 with e1 e2
    subst e1 e2
    intro id q hq ht
    have hq : q ∈ r.pkts id := hq
    rw [onSent_pkts hr' id] at hq
    split at hq
    · rcases List.mem_append.mp hq with hq | hq
      · exact ⟨q, hq, rfl, rfl, ht⟩
      · rw [List.mem_singleton] at hq
        subst hq
        cases ht
    · exact ⟨q, hq, rfl, rfl, ht⟩
  | ack id rs i now =>
    obtain ⟨r, hr', e1⟩ := map_eq_ok h1
    injection e1 with e1 e2
    subst e1 e2
    exact sub r.1 fun id => (Sub.ack hi hl hr' id).1
  | timeout now k => exact absurd rfl (he now k)
  | retry now =>
    obtain ⟨r, hr', e1⟩ := map_eq_ok h1
    injection e1 with e1 e2
    subst e1 e2
    refine same r.1 fun id q hq => ?_
    unfold Sys.retry at hr'
    simp only at hr'
    split at hr'
    · cases hr'
    · rename_i s₁ hd
      injection hr' with hr'
      rw [← hr'] at hq
      unfold Sys.pkts at hq
      simp only [(discardAll_spaces hd).1] at hq
      cases hsp : h.s.spaces id with
      | none => rw [hsp] at hq; cases hq
      | some sp => rw [hsp] at hq; cases hq
  | drop0rtt now =>
    obtain ⟨r, hr', e1⟩ := map_eq_ok h1
    injection e1 with e1 e2
    subst e1 e2
    refine same r.1 fun id q hq => ?_
    unfold Sys.drop0rtt at hr'
    split at hr'
    · injection hr' with hr'; rw [← hr'] at hq; exact hq
    · rename_i sp hsp
      split at hr'
      · injection hr' with hr'; rw [← hr'] at hq; exact hq
      · split at hr'
        · cases hr'
        · rename_i s₁ hd
          injection hr' with hr'
          rw [← hr'] at hq
          unfold Sys.pkts at hq
          simp only [(discardAll_spaces hd).1] at hq
          unfold Sys.setSpace at hq
          simp only at hq
          by_cases hid : id = .app
          · rw [if_pos hid] at hq; cases hq
          · rw [if_neg hid] at hq; exact hq
  | discard i now =>
    obtain ⟨r, hr', e1⟩ := map_eq_ok h1
    injection e1 with e1 e2
    subst e1 e2
    refine same r fun id q hq => ?_
    unfold Sys.discardSpace at hr'
    split at hr'
    · cases hr'
    · split at hr'
      · cases hr'
      · split at hr'
        · cases hr'
        · rename_i s₁ hd
          have e2 : r.spaces = s₁.spaces := by
            simp only at hr'
            split at hr'
            · have := confirm_spaces hr'
              rw [this]
            · injection hr' with hr'; rw [← hr']
          unfold Sys.pkts at hq
          rw [e2, (discardAll_spaces hd).1] at hq
          unfold Sys.setSpace at hq
          simp only at hq
          by_cases hid : id = i
          · rw [if_pos hid] at hq; cases hq
          · rw [if_neg hid] at hq; exact hq
  | migrate i =>
    injection h1 with h1
    injection h1 with e1 e2
    subst e1 e2
    intro id q hq ht
    have hq : q ∈ (h.s.switchPath i).clearPrimary.pkts id := hq
    rw [clearPrimary_pkts] at hq
    obtain ⟨p, hp, rfl⟩ := List.mem_map.mp hq
    unfold Sys.pkts at hp
    rw [(switchPath_spaces h.s i).1] at hp
    exact ⟨p, hp, rfl, rfl, ht⟩
  | peerMigrate i =>
    injection h1 with h1
    injection h1 with e1 e2
    subst e1 e2
    refine same (h.s.switchPath i) fun id q hq => ?_
    unfold Sys.pkts at hq
    rw [(switchPath_spaces h.s i).1] at hq
    exact hq
  | addPath _ _ => injection h1 with h1; injection h1 with e1 e2; subst e1 e2; exact same _ fun id q hq => hq
  | setMtu _ => injection h1 with h1; injection h1 with e1 e2; subst e1 e2; exact same _ fun id q hq => hq
  | setAckDelay _ => injection h1 with h1; injection h1 with e1 e2; subst e1 e2; exact same _ fun id q hq => hq
  | profile amp pace =>
    obtain ⟨r, hr', e1⟩ := map_eq_ok h1
    injection e1 with e1 e2
    subst e1 e2
    refine same r.1 fun id q hq => ?_
    unfold Sys.pkts at hq
    rw [sendProfile_spaces hr'] at hq
    exact hq

/-- If all fits then a timeout hands back all that was not handed back yet in the spaces it goes through. -/
theorem Reached.timeout_all (hr : Reached m h) {now : Nat} {k : Bool} (hl : Legal m h (.timeout now k)) (hs : h.step (.timeout now k) = .ok (h', o)) (hf : Fits h) :
    (∀ id, ∀ q ∈ h'.s.pkts id, q.pto = true → q.key ∈ o.probes.map Pkt.key ∨ ∃ p ∈ h.s.pkts id, q.pt = p.pt ∧ q.pn = p.pn ∧ p.pto = true) ∧
    ∀ id t, lastElicited h.sent id = some t → t + h.period ≤ now → (∃ p ∈ h'.s.pkts id, p.eliciting = true) →
      ∀ q ∈ h'.s.pkts id, q.lost = none → q.pto = true := by
  have hfire := fun id t => C31_fires_when_due hr hl hs (id := id) (t := t)
  obtain ⟨s₁, g1, gm, g3, g4, g5, e1, e2, e3, e4⟩ := hr.timeout hl hs
  rcases g4.cases with ⟨c1, c2, c3, c4⟩ | ⟨due, pt, sc, c1, c2, c3, c4, c5, c6, c7⟩
  · have hp : h'.s.pkts = s₁.pkts := by funext j; unfold Sys.pkts; rw [c2]
    refine ⟨fun id q hq ht => ?_, fun id t h1 h2 h3 => ?_⟩
    · rw [hp] at hq
      obtain ⟨p, hp, x1, x2, x3⟩ := (g3.sub id).1 q hq
      exact .inr ⟨p, hp, x1, x2, by rw [← x3]; exact ht⟩
    · have := hfire id t h1 h2 h3
      rw [count_congr c3, e2] at this
      omega
  · have hcap : 0 + ((retransmitSet due).map fun id => readySize (s₁.pkts id)).sum ≤ maxPtoPackets * s₁.cc.mtu := by
      have hle : ((retransmitSet due).map fun id => readySize (s₁.pkts id)).sum ≤ (allSpaces.map fun id => readySize (s₁.pkts id)).sum := by
        unfold retransmitSet
        generalize (fun i => due.contains i || (decide (i = SpaceId.initial) && due.contains .handshake)) = f
        generalize allSpaces = l
        induction l with
        | nil => exact Nat.le_refl _
        | cons a l ih =>
          rw [List.filter_cons]
          split
          · simp only [List.map_cons, List.sum_cons]; omega
          · simp only [List.map_cons, List.sum_cons]; omega
      have hb : ∀ id, readySize (s₁.pkts id) ≤ total (·.len) (h.s.pkts id) := fun id => Nat.le_trans (readySize_le _) (g3.sub id).2
      have := hb .initial
      have := hb .handshake
      have := hb .app
      unfold Fits at hf
      have e : ((h.tracked .initial ++ h.tracked .handshake ++ h.tracked .app).map (·.len)).sum =
          total (·.len) (h.s.pkts .initial) + total (·.len) (h.s.pkts .handshake) + total (·.len) (h.s.pkts .app) := by
        rw [List.map_append, List.map_append, List.sum_append, List.sum_append]
        rfl
      rw [e] at hf
      rw [e3]
      simp only [allSpaces, List.map_cons, List.map_nil, List.sum_cons, List.sum_nil] at hle
      unfold maxPtoPackets
      omega
    have hall := c1.all hcap
    refine ⟨fun id q hq ht => ?_, fun id t h1 h2 h3 q hq hn => ?_⟩
    · rw [c2] at hq
      obtain ⟨p, hp, hc⟩ := c1.back id q hq
      rcases hc with rfl | ⟨rfl, hrdy⟩
      · obtain ⟨p', hp', x1, x2, x3⟩ := (g3.sub id).1 q hp
        exact .inr ⟨p', hp', x1, x2, by rw [← x3]; exact ht⟩
      · by_cases hid : id ∈ retransmitSet due
        · exact .inl (List.mem_map.mpr ⟨_, hall id hid p hp hrdy, rfl⟩)
        · -- the space was not gone through
          exfalso
          have : sc.pkts id = s₁.pkts id := by unfold Sys.pkts; rw [c1.other id hid]
          rw [this] at hq
          cases hsp : s₁.spaces id with
          | none => rw [pkts_none hsp] at hq; cases hq
          | some sp =>
            rw [pkts_some hsp] at hq hp
            have := (g1.sp id sp hsp).sorted.unique hq hp rfl
            rw [← this] at hrdy
            unfold Pkt.ptoReady Pkt.marked at hrdy
            simp at hrdy
    · have hcount := hfire id t h1 h2 h3
      have hid : id ∈ due := by
        rw [c4 id]
        obtain ⟨p, hp, hel⟩ := h3
        rw [c2] at hp
        have hi := hr.inv
        have hps : ∃ p' ∈ s₁.pkts id, p'.eliciting = true := by
          obtain ⟨p', hp', hc⟩ := c1.back id p hp
          rcases hc with rfl | ⟨rfl, _⟩
          · exact ⟨p, hp', hel⟩
          · exact ⟨p', hp', hel⟩
        obtain ⟨p', hp', hel'⟩ := hps
        cases hsp : s₁.spaces id with
        | none => rw [pkts_none hsp] at hp'; cases hp'
        | some sp =>
          rw [pkts_some hsp] at hp'
          have htm := g3.times id
          rw [hsp] at htm
          cases hsp₀ : h.s.spaces id with
          | none => rw [hsp₀] at htm; cases htm
          | some sp₀ =>
            rw [hsp₀] at htm
            simp only [Option.map_some, Option.some.injEq] at htm
            have hle : sp.lastEliciting = some t := htm.trans ((hi.le id sp₀ hsp₀).1 t h1)
            have hfl : sp.inFlight > 0 := by
              rw [(g1.sp id sp hsp).inFl]
              unfold countEliciting
              exact List.length_pos_of_mem (List.mem_filter.mpr ⟨hp', hel'⟩)
            refine ⟨t + s₁.ptoPeriod, ?_, by rw [e1]; exact h2⟩
            unfold Sys.ptoTime
            rw [hsp]
            unfold Space.ptoBase
            simp only
            rw [if_pos hfl, hle]
            rfl
      rw [c2] at hq
      obtain ⟨p, hp, hc⟩ := c1.back id q hq
      rcases hc with rfl | ⟨rfl, hrdy⟩
      · cases hpt : q.pto with
        | true => rfl
        | false =>
          exfalso
          have hrdy : q.ptoReady = true := by unfold Pkt.ptoReady; rw [hpt, hn]; rfl
          have hin := hall id (mem_retransmitSet.mpr (.inl hid)) q hp hrdy
          have hsp : q.marked.pt.space = id := by
            cases hsp : s₁.spaces id with
            | none => rw [pkts_none hsp] at hp; cases hp
            | some sp => rw [pkts_some hsp] at hp; exact (g1.sp id sp hsp).pt q hp
          have := (g5.probes _ hin).2 q (by rw [hsp, c2]; exact hq) rfl
          rw [hpt] at this
          cases this
      · rfl

theorem Fitting.flags (hf : Fitting m h) : ∀ id, ∀ q ∈ h.s.pkts id, q.pto = true → q.key ∈ h.probed := by
  induction hf with
  | new _ _ => intro id q hq; cases hq
  | @step h h' e o hf hl hfit hs ih =>
    intro id q hq ht
    have hr := hf.reached
    have hpr : h'.probed = h.probed ++ o.probes.map Pkt.key := by
      obtain ⟨s', h1, rfl⟩ := Hist.step_ok hs
      rfl
    have old : (∃ p ∈ h.s.pkts id, q.pt = p.pt ∧ q.pn = p.pn ∧ p.pto = true) → q.key ∈ h'.probed := by
      rintro ⟨p, hp, e1, e2, e3⟩
      have hk : q.key = p.key := by unfold Pkt.key; rw [e1, e2]
      rw [hpr, hk]
      exact List.mem_append_left _ (ih id p hp e3)
    by_cases he : ∃ now k, e = .timeout now k
    · obtain ⟨now, k, rfl⟩ := he
      rcases (hr.timeout_all hl hs (hfit ⟨now, k, rfl⟩)).1 id q hq ht with h1 | h1
      · rw [hpr]; exact List.mem_append_right _ h1
      · exact old h1
    · exact old (hr.inv.flags hl hs (fun now k hc => he ⟨now, k, hc⟩) id q hq ht)

/-- C32: if at each timeout all tracked packets fit in two datagrams, then after a timeout every ack-eliciting packet
that is tracked and not lost, in a space whose timer has run out, has been handed back.  With `C32_at_most_once` this
is exactly once.  What is missing: of more packets some may be passed over and never be handed back, see
`C32_passed_over`. -/
theorem C32_all_that_fit_partial (hf : Fitting m h) {now : Nat} {k : Bool} (hl : Legal m h (.timeout now k)) (hfit : Fits h)
    (hs : h.step (.timeout now k) = .ok (h', o)) {id : SpaceId} {t : Nat} (ht : lastElicited h.sent id = some t) (hd : t + h.period ≤ now) :
    ∀ p ∈ h'.tracked id, p.eliciting = true → p.lost = none → p.key ∈ h'.probed := by
  intro p hp hel hn
  have h1 := (hf.reached.timeout_all hl hs hfit).2 id t ht hd ⟨p, hp, hel⟩ p hp hn
  exact (Fitting.step hf hl (fun _ => hfit) hs).flags id p hp h1

/-- The premises are met when two packets are outstanding and the timer runs out. -/
example : ∃ h, Fitting 1200 h ∧ Fits h ∧ Legal 1200 h (.timeout 300000010 true) ∧ lastElicited h.sent .app = some 10 ∧ 10 + h.period ≤ 300000010 ∧
    ∃ r, h.step (.timeout 300000010 true) = .ok r ∧ r.1.probed = [(.app, 0), (.app, 1)] ∧ (r.1.tracked .app).length = 2 := by
  have ⟨h1, s1⟩ : ∃ r, (Hist.new 100 100000000 1200 .cubic true).step (.send (exPkt 0 0) none) = .ok r := ⟨_, rfl⟩
  have ⟨h2, s2⟩ : ∃ r, h1.1.step (.send (exPkt 1 10) none) = .ok r := by
    injection s1 with s1
    rw [← s1]
    exact ⟨_, rfl⟩
  refine ⟨h2.1, .step (.step (.new (by decide) (by decide)) (by decide) (by rintro ⟨_, _, hc⟩; cases hc) s1) ?_ (by rintro ⟨_, _, hc⟩; cases hc) s2, ?_⟩
  · injection s1 with s1
    rw [← s1]
    decide
  · injection s1 with s1
    subst s1
    injection s2 with s2
    subst s2
    exact ⟨by decide +kernel, by decide +kernel, by decide +kernel, by decide +kernel, _, rfl, by decide +kernel, by decide +kernel⟩

/-- A packet that is marked but was not handed back will not be. -/
theorem Reached.passed_over (hr : Reached m h) {q : Pkt} (hq : q ∈ h.tracked q.pt.space) (ht : q.pto = true) (hk : q.key ∉ h.probed) {f n : Nat}
    (h1 : Run m h f n h') : q.key ∉ h'.probed ∧ q.pn < h'.next q.pt.space ∧ ∀ p ∈ h'.tracked q.pt.space, p.pn = q.pn → p.pto = true := by
  induction h1 with
  | refl =>
    refine ⟨hk, hr.inv.core.below _ q hq, fun p hp e => ?_⟩
    have hp : p ∈ h.s.pkts q.pt.space := hp
    have hq : q ∈ h.s.pkts q.pt.space := hq
    cases hsp : h.s.spaces q.pt.space with
    | none => rw [pkts_none hsp] at hp; cases hp
    | some sp =>
      rw [pkts_some hsp] at hp hq
      rw [(hr.inv.core.sp _ sp hsp).sorted.unique hp hq e]
      exact ht
  | step h1 hl hs ih =>
    obtain ⟨i1, i2, i3⟩ := ih
    have hi := (hr.of_run h1).inv
    obtain ⟨s', g1, rfl⟩ := Hist.step_ok hs
    have fa := hi.facts hl g1
    refine ⟨fun hc => ?_, Nat.lt_of_lt_of_le i2 (hl.next _), fun p hp e => ?_⟩
    · rcases List.mem_append.mp hc with hc | hc
      · exact i1 hc
      · obtain ⟨l, hl1, hl2⟩ := List.mem_map.mp hc
        unfold Pkt.key at hl2
        injection hl2 with e1 e2
        obtain ⟨p, hp, e3, e4, _⟩ := (fa.moves.probes l hl1).1
        rw [e1] at hp
        rw [i3 p hp (e3.trans e2)] at e4
        cases e4
    · rcases fa.moves.evol _ p hp with ⟨p', hp', ev⟩ | hge
      · exact ev.pto (i3 p' hp' (ev.pn ▸ e))
      · omega

/-- C32 does not hold in general: of three outstanding packets of 1000 bytes a timeout hands back two.  The third is
outstanding but whatever happens next it is never handed back (recovery/mod.rs:951-966: the iterator has marked it
before it is found not to fit). -/
theorem C32_passed_over : ∃ h, Reached 1200 h ∧ ∃ q ∈ h.tracked .app, q.eliciting = true ∧ q.lost = none ∧ q.key = (.app, 2) ∧ 0 < h.s.ptoCount ∧
    ∀ f n h', Run 1200 h f n h' → (.app, 2) ∉ h'.probed := by
  have hx : (Hist.run 1200 (.new 100 100000000 1200 .cubic true)
    [.send (exPkt 0 0) none, .send (exPkt 1 10) none, .send (exPkt 2 20) none, .timeout 300000020 true]).isSome = true := by decide +kernel
  obtain ⟨h, hh⟩ := Option.isSome_iff_exists.mp hx
  have hr : Reached 1200 h := Reached.run (.new (by decide) (by decide)) hh
  have e1 : ((Hist.run 1200 (.new 100 100000000 1200 .cubic true)
    [.send (exPkt 0 0) none, .send (exPkt 1 10) none, .send (exPkt 2 20) none, .timeout 300000020 true]).map fun h => (h.probed, h.s.ptoCount)) =
      some ([(.app, 0), (.app, 1)], 1) := by decide +kernel
  have e2 : ((Hist.run 1200 (.new 100 100000000 1200 .cubic true)
    [.send (exPkt 0 0) none, .send (exPkt 1 10) none, .send (exPkt 2 20) none, .timeout 300000020 true]).map fun h =>
      (h.tracked .app).any fun q => decide (q.key = (.app, 2)) && q.eliciting && q.lost.isNone && q.pto) = some true := by decide +kernel
  rw [hh] at e1 e2
  simp only [Option.map_some, Option.some.injEq, Prod.mk.injEq] at e1 e2
  obtain ⟨e1, e3⟩ := e1
  obtain ⟨q, hq, eq⟩ := List.any_eq_true.mp e2
  simp only [Bool.and_eq_true, decide_eq_true_eq, Option.isNone_iff_eq_none] at eq
  obtain ⟨⟨⟨k1, k2⟩, k3⟩, k4⟩ := eq
  have hsp : q.pt.space = .app := by unfold Pkt.key at k1; injection k1
  refine ⟨h, hr, q, hq, k2, k3, k1, by rw [e3]; decide, fun f n h' h1 => ?_⟩
  have := (hr.passed_over (by rw [hsp]; exact hq) k4 (by rw [k1, e1]; decide) h1).1
  rw [k1] at this
  exact this

end Neqo.Rec
