import Verif.Recovery.Timer

/-!
# C98: loss recovery asks to be called in time

The time at which loss recovery wants to be called is not after any time at which something has to be done; a call
before that time does nothing; after a call it is in the future or a probe can be sent.
-/
namespace Neqo.Rec

variable {m : Nat} {h h' : Hist} {e : Ev} {o : Out}

theorem earlier_le_left {a : Nat} {b : Option Nat} : ∃ d, earlier (some a) b = some d ∧ d ≤ a := by
  cases b with
  | none => exact ⟨a, rfl, Nat.le_refl _⟩
  | some b => exact ⟨min a b, rfl, Nat.min_le_left ..⟩

theorem earlier_le_right {a : Option Nat} {b : Nat} : ∃ d, earlier a (some b) = some d ∧ d ≤ b := by
  cases a with
  | none => exact ⟨b, rfl, Nat.le_refl _⟩
  | some a => exact ⟨min a b, rfl, Nat.min_le_right ..⟩

theorem earlier_mem {a b : Option Nat} {d : Nat} (h : earlier a b = some d) : a = some d ∨ b = some d := by
  unfold earlier at h
  split at h
  · rename_i x y
    injection h with h
    by_cases hxy : x ≤ y
    · exact .inl (by rw [← h, Nat.min_eq_left hxy])
    · exact .inr (by rw [← h, Nat.min_eq_right (by omega)])
  · exact .inl h
  · exact .inr h

theorem lossTime_le {s : Sys} {id : SpaceId} {sp : Space} {t : Nat} (hs : s.spaces id = some sp) (ht : sp.firstOoo = some t) :
    ∃ d, s.lossTime = some d ∧ d ≤ t + s.rtt.lossDelay := by
  unfold Sys.lossTime
  have hmem : t ∈ allSpaces.filterMap fun i => (s.spaces i).bind (·.firstOoo) := by
    refine List.mem_filterMap.mpr ⟨id, mem_allSpaces id, ?_⟩
    rw [hs]
    exact ht
  generalize (allSpaces.filterMap fun i => (s.spaces i).bind (·.firstOoo)) = l at hmem
  cases hm : l.min? with
  | none =>
    rw [List.min?_eq_none_iff] at hm
    rw [hm] at hmem
    cases hmem
  | some d =>
    have := (List.min?_eq_some_iff.mp hm).2 t hmem
    exact ⟨d + s.rtt.lossDelay, rfl, by omega⟩

theorem lossTime_mem {s : Sys} {d : Nat} (h : s.lossTime = some d) : ∃ id sp t, s.spaces id = some sp ∧ sp.firstOoo = some t ∧ d = t + s.rtt.lossDelay := by
  unfold Sys.lossTime at h
  obtain ⟨t, h1, h2⟩ := Option.map_eq_some_iff.mp h
  obtain ⟨id, _, h3⟩ := List.mem_filterMap.mp (List.min?_mem h1)
  obtain ⟨sp, h4, h5⟩ := Option.bind_eq_some_iff.mp h3
  exact ⟨id, sp, t, h4, h5, h2.symm⟩

theorem nextTimeout_loss {s : Sys} {b : Bool} {x : Option Nat} (h : s.nextTimeout b = .ok x) {a : Nat} (hl : s.lossTime = some a) : ∃ d, x = some d ∧ d ≤ a := by
  unfold Sys.nextTimeout at h
  split at h
  · split at h
    · cases h
    · injection h with h
      rw [hl] at h
      obtain ⟨d, e, hd⟩ := earlier_le_left (a := a) (b := ‹Option Nat›)
      exact ⟨d, by rw [← h, e], hd⟩
  · injection h with h
    exact ⟨a, by rw [← h, hl], Nat.le_refl _⟩

theorem nextTimeout_probe {s : Sys} {x : Option Nat} (h : s.nextTimeout true = .ok x) {a : Nat} (hl : s.probeTime = .ok (some a)) : ∃ d, x = some d ∧ d ≤ a := by
  unfold Sys.nextTimeout at h
  rw [if_pos rfl, hl] at h
  injection h with h
  obtain ⟨d, e, hd⟩ := earlier_le_right (a := s.lossTime) (b := a)
  exact ⟨d, by rw [← h, e], hd⟩

/-- The timer of a space bounds the time at which the probe timer is due, if the space matters. -/
theorem probeTime_le {s : Sys} {x : Option Nat} (h : s.probeTime = .ok x) {id : SpaceId} {t : Nat} (hid : id = .app ↔ s.confirmed.isSome)
    (ht : s.ptoTime id = .ok (some t)) : ∃ d, x = some d ∧ d ≤ t := by
  unfold Sys.probeTime at h
  cases hc : s.confirmed with
  | some c =>
    rw [hc] at h hid
    rw [hid.mpr rfl] at ht
    simp only at h
    rw [ht] at h
    injection h with h
    exact ⟨t, h.symm, Nat.le_refl _⟩
  | none =>
    rw [hc] at h hid
    simp only at h
    split at h
    · cases h
    · rename_i a ha
      split at h
      · cases h
      · rename_i b hb
        injection h with h
        cases id with
        | initial =>
          rw [ht] at ha
          injection ha with ha
          subst ha
          obtain ⟨d, e, hd⟩ := earlier_le_left (a := t) (b := b)
          exact ⟨d, by rw [← h, e], hd⟩
        | handshake =>
          rw [ht] at hb
          injection hb with hb
          subst hb
          obtain ⟨d, e, hd⟩ := earlier_le_right (a := a) (b := t)
          exact ⟨d, by rw [← h, e], hd⟩
        | app => exact absurd (hid.mp rfl) (by simp)

/-- C98: loss recovery can always say when it wants to be called. -/
theorem C98_always_answers (hr : Reached m h) (b : Bool) : ∃ d, h.s.nextTimeout b = .ok d := by
  have hc := hr.inv.core
  have hp : ∃ x, h.s.probeTime = .ok x := by
    unfold Sys.probeTime
    split
    · exact hc.ptoTime .app
    · obtain ⟨a, ha⟩ := hc.ptoTime .initial
      obtain ⟨b, hb⟩ := hc.ptoTime .handshake
      rw [ha, hb]
      exact ⟨_, rfl⟩
  obtain ⟨x, hx⟩ := hp
  unfold Sys.nextTimeout
  cases b
  · exact ⟨_, rfl⟩
  · rw [if_pos rfl, hx]
    exact ⟨_, rfl⟩

/-- C98: if a packet is outstanding and a later one of its space has been acknowledged, then loss recovery wants to be
called at the latest when the packet has to be considered lost. -/
theorem C98_loss_in_time (hr : Reached m h) {b : Bool} {x : Option Nat} (hx : h.s.nextTimeout b = .ok x) {id : SpaceId} {p : Pkt} {n : Nat}
    (hp : p ∈ h.tracked id) (hl : p.lost = none) (hn : (id, n) ∈ h.acked) (hlt : p.pn < n) :
    ∃ d, x = some d ∧ d ≤ p.sent + timeThreshold h.s.rtt := by
  have hp : p ∈ h.s.pkts id := hp
  cases hs : h.s.spaces id with
  | none => rw [pkts_none hs] at hp; cases hp
  | some sp =>
    rw [pkts_some hs] at hp
    obtain ⟨n', hla, hle⟩ := (hr.inv.la id sp hs).2 n hn
    obtain ⟨t, h1, h2, _⟩ := hr.oinv id sp hs n' hla p hp hl (by omega)
    obtain ⟨a, h3, h4⟩ := lossTime_le hs h1
    obtain ⟨d, h5, h6⟩ := nextTimeout_loss hx h3
    rw [timeThreshold_eq] at h4
    exact ⟨d, h5, by omega⟩

/-- C98: if an ack-eliciting packet is outstanding, then loss recovery wants to be called at the latest when the probe
timeout since the last ack-eliciting packet has passed.  Until the handshake is confirmed this is said of Initial and
Handshake packets, after that of application packets, and it needs that the path can take a probe. -/
theorem C98_probe_in_time (hr : Reached m h) {x : Option Nat} (hx : h.s.nextTimeout true = .ok x) {id : SpaceId} (hid : id = .app ↔ h.s.confirmed.isSome)
    (hp : ∃ p ∈ h.tracked id, p.eliciting = true) {t : Nat} (ht : lastElicited h.sent id = some t) : ∃ d, x = some d ∧ d ≤ t + h.period := by
  obtain ⟨p, hp, hel⟩ := hp
  have hp : p ∈ h.s.pkts id := hp
  have hi := hr.inv
  cases hs : h.s.spaces id with
  | none => rw [pkts_none hs] at hp; cases hp
  | some sp =>
    rw [pkts_some hs] at hp
    have hle := (hi.le id sp hs).1 t ht
    have hfl : sp.inFlight > 0 := by
      rw [(hi.core.sp id sp hs).inFl]
      unfold countEliciting
      exact List.length_pos_of_mem (List.mem_filter.mpr ⟨hp, hel⟩)
    have hpt : h.s.ptoTime id = .ok (some (t + h.s.ptoPeriod)) := by
      unfold Sys.ptoTime
      rw [hs]
      unfold Space.ptoBase
      simp only
      rw [if_pos hfl, hle]
      rfl
    cases hy : h.s.probeTime with
    | error e =>
      unfold Sys.nextTimeout at hx
      rw [if_pos rfl, hy] at hx
      cases hx
    | ok y =>
      obtain ⟨a, h1, h2⟩ := probeTime_le hy hid hpt
      rw [h1] at hy
      obtain ⟨d, h3, h4⟩ := nextTimeout_probe hx hy
      rw [period_eq] at h2
      exact ⟨d, h3, by omega⟩

/-- C98: until the handshake is confirmed there is always a time at which loss recovery wants to be called, once a packet
was sent in the Initial or Handshake space and as long as its keys are there, even if nothing is outstanding: a client
must not leave a server stuck that may not send any more. -/
theorem C98_handshake_never_stuck (hr : Reached m h) {x : Option Nat} (hx : h.s.nextTimeout true = .ok x) {p : Pkt} (hp : p ∈ h.sent) (hid : p.pt.space ≠ .app)
    (hc : h.s.confirmed = none) (hk : h.s.spaces p.pt.space ≠ none) : ∃ d, x = some d := by
  have hi := hr.inv
  cases hs : h.s.spaces p.pt.space with
  | none => exact absurd hs hk
  | some sp =>
    cases hle : sp.lastEliciting with
    | none => exact absurd rfl ((hi.le _ sp hs).2.2 hid hle p hp)
    | some t =>
      have hpt : h.s.ptoTime p.pt.space = .ok (some (t + h.s.ptoPeriod)) := by
        unfold Sys.ptoTime
        rw [hs]
        unfold Space.ptoBase
        simp only
        rw [hle, (hi.core.sp _ sp hs).sid, if_neg hid]
        by_cases hf : sp.inFlight > 0
        · rw [if_pos hf]; rfl
        · rw [if_neg hf]; rfl
      cases hy : h.s.probeTime with
      | error e =>
        unfold Sys.nextTimeout at hx
        rw [if_pos rfl, hy] at hx
        cases hx
      | ok y =>
        obtain ⟨a, h1, _⟩ := probeTime_le hy (by rw [hc]; exact ⟨fun h => absurd h hid, (fun h => by cases h)⟩) hpt
        rw [h1] at hy
        obtain ⟨d, h3, _⟩ := nextTimeout_probe hx hy
        exact ⟨d, h3⟩

/-- C98: a call before that time declares nothing lost. -/
theorem C98_early_call_loses_nothing (hr : Reached m h) {b : Bool} {x : Option Nat} (hx : h.s.nextTimeout b = .ok x) {now : Nat} (hlt : ∀ d, x = some d → now < d)
    {k : Bool} (hs : h.step (.timeout now k) = .ok (h', o)) : o.lost = [] := by
  obtain ⟨s', h1, rfl⟩ := Hist.step_ok hs
  have hi := hr.inv
  obtain ⟨r, hr', e1⟩ := map_eq_ok h1
  injection e1 with e1 e2
  subst e1 e2
  unfold Sys.onTimeout at hr'
  split at hr'
  · cases hr'
  · rename_i s1 l1 ht
    split at hr'
    · cases hr'
    · injection hr' with hr'
      subst hr'
      obtain ⟨_, _, _, b4⟩ := timeoutSpaces_out (by decide) ht
      refine b4 fun id _ sp sp' cd l c1 c2 => ?_
      refine detectLost_none (hi.core.sp id sp c1).lostFirst (hr.oinv id sp c1) (fun t htt => ?_) c2
      obtain ⟨a, h3, h4⟩ := lossTime_le c1 htt
      obtain ⟨d, h5, h6⟩ := nextTimeout_loss hx h3
      have := hlt d h5
      omega

/-- C98: once the handshake is confirmed, a call before that time does not fire the probe timer either.  Missing: this is
not so before the handshake is confirmed, see `C98_early_call_fires_probe`. -/
theorem C98_early_call_sends_no_probe_partial (hr : Reached m h) {x : Option Nat} (hx : h.s.nextTimeout true = .ok x) {now : Nat} (hlt : ∀ d, x = some d → now < d)
    (hc : h.s.confirmed.isSome) {k : Bool} (hl : Legal m h (.timeout now k)) (hs : h.step (.timeout now k) = .ok (h', o)) :
    o.probes = [] ∧ h'.s.ptoCount = h.s.ptoCount := by
  have hi := hr.inv
  obtain ⟨s₁, g1, gm, g3, g4, g5, e1, e2, e3, _⟩ := hr.timeout hl hs
  rcases g4.cases with ⟨c1, c2, c3, c4⟩ | ⟨due, pt, sc, c1, c2, c3, c4, c5, c6, c7⟩
  · exact ⟨c1, by rw [← e2]; exact count_congr c3⟩
  · exfalso
    obtain ⟨id, hid⟩ := List.exists_mem_of_ne_nil due c3
    obtain ⟨t, ht, hle⟩ := (c4 id).mp hid
    obtain ⟨sp, base, q1, q2, q3, q4⟩ := ptoTime_eq ht
    have hc1 : s₁.confirmed ≠ none := by
      rw [g3.conf]
      intro hn
      rw [hn] at hc
      cases hc
    have hgone := g1.conf.mp hc1
    have happ : id = .app := by
      cases id with
      | app => rfl
      | handshake => rw [hgone] at q1; cases q1
      | initial => rw [g1.hs hgone] at q1; cases q1
    subst happ
    have hfl := q4 (g1.sp _ sp q1).sid
    rw [(g1.sp _ sp q1).inFl] at hfl
    unfold countEliciting at hfl
    obtain ⟨q, hq⟩ := List.exists_mem_of_length_pos hfl
    obtain ⟨hq1, hq2⟩ := List.mem_filter.mp hq
    rw [← pkts_some q1] at hq1
    have htr : ∃ p ∈ h.tracked .app, p.eliciting = true := by
      rcases gm.evol .app q hq1 with ⟨p, hp, ev⟩ | hge
      · exact ⟨p, hp, by rw [← ev.eliciting]; exact hq2⟩
      · exact absurd (g1.below _ q hq1) (by omega)
    have htm := g3.times .app
    rw [q1] at htm
    cases hs0 : h.s.spaces .app with
    | none => rw [hs0] at htm; cases htm
    | some sp0 =>
      rw [hs0] at htm
      simp only [Option.map_some, Option.some.injEq] at htm
      have hlast : lastElicited h.sent .app = some base := by
        rw [← (hi.le .app sp0 hs0).2.1 rfl, ← htm, q2]
      obtain ⟨d, h1, h2⟩ := C98_probe_in_time hr hx (id := .app) ⟨fun _ => hc, fun _ => rfl⟩ htr hlast
      have := hlt d h1
      rw [e1] at q3
      omega

/-- C98: after a call, the time at which loss recovery wants to be called next is in the future, or the probe timer has
just fired and a datagram may be sent at once whatever the congestion window and the pacer say. -/
theorem C98_after_call_future_or_probe (hr : Reached m h) {now : Nat} {k : Bool} (hl : Legal m h (.timeout now k)) (hs : h.step (.timeout now k) = .ok (h', o))
    {b : Bool} {d : Nat} (hx : h'.s.nextTimeout b = .ok (some d)) :
    now < d ∨ (h'.s.ptoCount = h.s.ptoCount + 1 ∧ ∀ amp pace, ∃ s p, h'.s.sendProfile amp pace = .ok (s, p) ∧ p.pto = true ∧ p.limit = h'.s.cc.mtu) := by
  have hf := hr.timeout_fresh hs
  obtain ⟨s₁, g1, gm, g3, g4, g5, e1, e2, e3, _⟩ := hr.timeout hl hs
  have hrtt : h'.s.rtt = h.s.rtt := g4.rtt.trans g3.rtt
  have hi' := (Reached.step hr hl hs).inv
  rcases g4.cases with ⟨c1, c2, c3, c4⟩ | ⟨due, pt, sc, c1, c2, c3, c4, c5, c6, c7⟩
  · left
    have hloss : ∀ a, h'.s.lossTime = some a → now < a := by
      intro a ha
      obtain ⟨id, sp, t, f1, f2, f3⟩ := lossTime_mem ha
      have := (hf id sp f1).2 t f2
      rw [hrtt] at f3
      omega
    have hper : h'.s.ptoPeriod = s₁.ptoPeriod := by
      unfold Sys.ptoPeriod Sys.ptoCount
      rw [g4.rtt, g4.conf, g4.fast, c3]
    have hprobe : ∀ i a, h'.s.ptoTime i = .ok (some a) → now < a := by
      intro i a ha
      have : ¬ a ≤ now := fun hc => c4 i ⟨a, by
        unfold Sys.ptoTime at ha ⊢
        rw [c2, hper] at ha
        exact ha, hc⟩
      omega
    unfold Sys.nextTimeout at hx
    split at hx
    · split at hx
      · cases hx
      · rename_i y hy
        injection hx with hx
        rcases earlier_mem hx with h1 | h1
        · exact hloss d h1
        · rw [h1] at hy
          unfold Sys.probeTime at hy
          split at hy
          · exact hprobe _ d hy
          · split at hy
            · cases hy
            · rename_i u hu
              split at hy
              · cases hy
              · rename_i v hv
                injection hy with hy
                rcases earlier_mem hy with h2 | h2
                · rw [h2] at hu; exact hprobe _ d hu
                · rw [h2] at hv; exact hprobe _ d hv
    · injection hx with hx
      exact hloss d hx
  · right
    refine ⟨?_, fun amp pace => ?_⟩
    · rw [← e2, ← c6]
      exact count_some c5
    · unfold Sys.sendProfile
      have hp : (h'.s.pto.any fun p => decide (p.packets > 0)) = true := by
        rw [c5]
        show decide (pt.packets > 0) = true
        rw [c7]
        rfl
      have hm : h'.s.cc.mtu > ackOnlyLimit := Nat.lt_of_lt_of_le hi'.big hi'.core.cc.mtu
      dsimp only
      rw [if_pos hp, if_pos hm]
      exact ⟨_, _, rfl, rfl, rfl⟩

/-! ## Examples -/

/-- Two packets, of which the second is acknowledged: the first one is lost at the time threshold, 9/8 of the round-trip
time of 50 ms after it was sent. -/
def timerRun : Option Hist :=
  Hist.run 1200 (.new 100 100000000 1200 .reno true)
    [.send (exPkt 0 0) none, .send (exPkt 1 0) none, .ack .app [(1, 1)] {} 50000000]

example : timerRun.map (fun h => (h.tracked .app).map (fun p => (p.pn, p.lost)) = [(0, none)] ∧ (SpaceId.app, 1) ∈ h.acked ∧
    h.s.nextTimeout true = .ok (some 56250000)) = some True := by
  have : (timerRun.map fun h => decide ((h.tracked .app).map (fun p => (p.pn, p.lost)) = [(0, none)]) && decide ((SpaceId.app, 1) ∈ h.acked) &&
      decide (h.s.nextTimeout true = .ok (some 56250000))) = some true := by decide +kernel
  cases hr : timerRun with
  | none => rw [hr] at this; cases this
  | some h =>
    rw [hr] at this
    simp only [Option.map_some, Option.some.injEq, Bool.and_eq_true, decide_eq_true_eq] at this
    simp only [Option.map_some, this, and_self]

/-- One nanosecond too early nothing happens, at the time the packet is lost, and after that nothing is left to wait for. -/
example : (timerRun.bind fun h => match h.step (.timeout 56249999 false) with | .ok r => some (r.2.lost.map (·.pn)) | .error _ => none) = some [] := by decide +kernel
example : (timerRun.bind fun h => match h.step (.timeout 56250000 false) with | .ok r => some (r.2.lost.map (·.pn), decide (r.1.s.nextTimeout false = .ok none)) | .error _ => none) =
    some ([0], true) := by decide +kernel

/-- A client's first packet: the probe timer is set; when it fires the time doubles. -/
def initialPkt (n t : Nat) : Pkt := { pt := .initial, pn := n, eliciting := true, sent := t, len := 1200 }
def initialRun : Option Hist := Hist.run 1200 (.new 100 100000000 1200 .reno true) [.send (initialPkt 0 0) none]
example : (initialRun.map fun h => decide (h.s.nextTimeout true = .ok (some 300000000))) = some true := by decide +kernel
example : (initialRun.map fun h => (lastElicited h.sent .initial, h.period, h.s.confirmed)) = some (some 0, 300000000, none) := by decide +kernel
example : (initialRun.bind fun h => match h.step (.timeout 300000000 false) with
    | .ok r => some (r.2.probes.map (·.pn), decide (r.1.s.nextTimeout true = .ok (some 600000000))) | .error _ => none) = some ([0], true) := by decide +kernel

/-- The probe timer that fires late: the next time is then in the past, but a datagram can be sent. -/
example : (initialRun.bind fun h => match h.step (.timeout 900000000 false) with
    | .ok r => some (decide (r.1.s.nextTimeout true = .ok (some 600000000))) | .error _ => none) = some true := by decide +kernel

/-- Early data sent with the first packet, which is sent again 200 ms later. -/
def earlyPkt (n t : Nat) : Pkt := { pt := .zeroRtt, pn := n, eliciting := true, sent := t, len := 1000 }
def earlyRun : Option Hist := Hist.run 1200 (.new 100 100000000 1200 .reno true)
  [.send (initialPkt 0 0) none, .send (earlyPkt 0 0) none, .send (initialPkt 1 200000000) none]

/-- C98 fails before the handshake is confirmed: the probe timer of the application space is not part of the time at which
loss recovery wants to be called, but a call before that time fires it: a probe is sent and the period of all spaces
doubles. -/
theorem C98_early_call_fires_probe : ∃ h h' o d, Reached 1200 h ∧ h.s.nextTimeout true = .ok (some d) ∧ 400000000 < d ∧ Legal 1200 h (.timeout 400000000 false) ∧
    h.step (.timeout 400000000 false) = .ok (h', o) ∧ o.probes.map Pkt.key = [(.app, 0)] ∧ h'.s.ptoCount = h.s.ptoCount + 1 ∧ h'.period = 2 * h.period := by
  have hd : (earlyRun.map fun h => decide (h.s.nextTimeout true = .ok (some 500000000)) && decide (Legal 1200 h (.timeout 400000000 false)) &&
      match h.step (.timeout 400000000 false) with
      | .ok r => decide (r.2.probes.map Pkt.key = [(.app, 0)]) && decide (r.1.s.ptoCount = h.s.ptoCount + 1) && decide (r.1.period = 2 * h.period)
      | .error _ => false) = some true := by decide +kernel
  cases hr : earlyRun with
  | none => rw [hr] at hd; cases hd
  | some h =>
    rw [hr] at hd
    simp only [Option.map_some, Option.some.injEq, Bool.and_eq_true, decide_eq_true_eq] at hd
    obtain ⟨⟨h1, h2⟩, h3⟩ := hd
    cases hs : h.step (.timeout 400000000 false) with
    | error e => rw [hs] at h3; cases h3
    | ok r =>
      rw [hs] at h3
      simp only [Bool.and_eq_true, decide_eq_true_eq] at h3
      exact ⟨h, r.1, r.2, 500000000, Reached.run (.new (by decide) (by decide)) hr, h1, by decide, h2, hs, h3.1.1, h3.1.2, h3.2⟩

end Neqo.Rec
