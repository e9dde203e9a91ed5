import Verif.Recovery.CcHist

/-!
# C30: the congestion window

A history is a sequence of calls on the congestion controller of one path (`CcHist`), in which packet numbers
increase.  The last section is about the whole of loss recovery, in which there are three number spaces.
-/
namespace Neqo.Rec

variable {m : Nat} {h h' : CcHist}

/-- A packet of the example. -/
def exCc (n len : Nat) : Pkt := { pt := .short, pn := n, eliciting := true, sent := n, len := len }

/-- Sixteen full packets, but for the sixth, which has one byte. -/
def exCcSends : List CcEv := (List.range 18).map fun n => .sent (exCc n (if n = 5 then 1 else 1200))

def exCcStart (es : List CcEv) : Option CcHist := (CcHist.new .reno 1200 true).run 1200 (exCcSends ++ es)

/-! ## The least window -/

/-- The window is never less than twice the least MTU the path has had.  What is missing: it may be less than twice the
MTU of now, see below. -/
theorem C30_window_floor_partial (hr : CcReached m h) : 2 * m ≤ h.c.cur.cwnd := hr.inv.ok.cur.cwnd

/-- Each time the window is reduced it is left at no less than twice the MTU. -/
theorem C30_reduction_floor (_ : CcReached m h) {e : CcEv} (hs : h.step e = .ok h') (hlt : h'.c.cur.cwnd < h.c.cur.cwnd)
    (ha : ∀ ps now pto ss bfi, e ≠ .acked ps now pto ss bfi) : 2 * h.c.mtu ≤ h'.c.cur.cwnd := by
  obtain ⟨h1, _, _⟩ := CcHist.step_ok hs
  cases e with
  | sent p =>
    injection h1 with h1
    obtain ⟨_, _, _, o4, _⟩ := h.c.onSent_eq p
    rw [← h1, o4, (exitTransient_facts h.c.cur p.pn).1] at hlt
    omega
  | acked ps now pto ss bfi => exact absurd rfl (ha ps now pto ss bfi)
  | ce p =>
    injection h1 with h1
    have h1 : (h.c.congestion p true).1 = h'.c := h1
    rcases congestion_cases h.c p true with ⟨_, _, q⟩ | ⟨_, q⟩
    · rw [← h1]; exact q
    · rw [← h1, q] at hlt; omega
  | lost f l pto ps =>
    have h1 : h.c.onLost f l pto ps = .ok h'.c := h1
    obtain ⟨_, _, c3⟩ := onLost_cases h1
    rcases c3 with c3 | ⟨_, c3, _⟩
    · rw [c3] at hlt; omega
    · exact c3
  | discard p =>
    have h1 : h.c.discard p = .ok h'.c := h1
    unfold Cc.discard at h1
    split at h1
    · split at h1
      · injection h1 with h1; rw [← h1] at hlt; exact absurd hlt (Nat.lt_irrefl _)
      · cases h1
    · injection h1 with h1; rw [← h1] at hlt; exact absurd hlt (Nat.lt_irrefl _)
  | clear => injection h1 with h1; rw [← h1] at hlt; exact absurd hlt (Nat.lt_irrefl _)
  | mtu n => injection h1 with h1; rw [← h1] at hlt; exact absurd hlt (Nat.lt_irrefl _)

/-- An acknowledgement never reduces the window. -/
theorem C30_ack_never_reduces (hr : CcReached m h) {ps : List Pkt} {now pto : Nat} {ss : SsIn} {bfi : Nat} (hl : CcLegal m h (.acked ps now pto ss bfi))
    (hs : h.step (.acked ps now pto ss bfi) = .ok h') : h.c.cur.cwnd ≤ h'.c.cur.cwnd := by
  obtain ⟨h1, _, _⟩ := CcHist.step_ok hs
  have h1 : h.c.onAcked ps now pto ss bfi = .ok h'.c := h1
  have hph := detectSpurious_phase hr.inv ps now pto
  obtain ⟨_, _, _, f4, _⟩ := onAcked_facts h1 (fun hlv hp => by
      rcases hph with h0 | h0
      · rw [h0] at hp; exact hl.2.2 hlv hp
      · rw [hp] at h0; cases h0)
    (fun hp => by
      rcases hph with h0 | h0
      · rw [h0] at hp ⊢; exact hr.inv.start hp
      · rw [hp] at h0; cases h0)
  refine Nat.le_trans ?_ f4
  unfold Cc.detectSpurious
  split
  · exact Nat.le_refl _
  · simp only
    split
    · unfold Cc.onSpurious
      split
      · exact Nat.le_refl _
      · split
        · exact Nat.le_refl _
        · rename_i hn
          simp only [not_or, Nat.not_le] at hn
          exact Nat.le_of_lt hn.1
    · exact Nat.le_refl _

/-- Losses at the initial window halve it, and it does not go below two datagrams. -/
def exCcLow : Option CcHist :=
  exCcStart [.lost none none 1000 [exCc 0 1200], .sent (exCc 18 1200), .lost none none 1000 [exCc 18 1200], .sent (exCc 19 1200),
    .lost none none 1000 [exCc 19 1200]]
example : (exCcStart []).map (fun h => h.c.cur.cwnd) = some 12000 := by decide +kernel
example : (exCcStart [.lost none none 1000 [exCc 0 1200]]).map (fun h => h.c.cur.cwnd) = some 6000 := by decide +kernel
example : exCcLow.map (fun h => h.c.cur.cwnd) = some 2400 := by decide +kernel

/-- The window may be less than the minimum, which is twice the MTU, when path MTU discovery finds a larger MTU: the
window stays as it is (classic_cc.rs:268-270, pmtud.rs). -/
theorem C30_below_minimum_after_mtu_raise : ∃ h, CcReached 1200 h ∧ h.c.cur.cwnd < 2 * h.c.mtu := by
  have hx : (exCcLow.bind fun h => h.run 1200 [.mtu 1500]).map (fun h => (h.c.cur.cwnd, h.c.mtu)) = some (2400, 1500) := by decide +kernel
  obtain ⟨h, hh, e⟩ := Option.map_eq_some_iff.mp hx
  obtain ⟨h₀, h0, h1⟩ := Option.bind_eq_some_iff.mp hh
  refine ⟨h, CcReached.run (CcReached.run (.new (by decide) (by decide)) h0) h1, ?_⟩
  injection e with e1 e2
  rw [e1, e2]
  decide

/-! ## Reductions -/

/-- The window is reduced at most once for the packets sent before a reduction: a report of lost packets that reduces
the window is about a packet sent after the last reduction, or about persistent congestion.  The packets sent before the
last reduction are those numbered less than `cut`. -/
theorem C30_reduced_once (hr : CcReached m h) {f l : Option Nat} {pto : Nat} {ps : List Pkt} (_ : CcLegal m h (.lost f l pto ps))
    (hs : h.step (.lost f l pto ps) = .ok h') (hlt : h'.c.cur.cwnd < h.c.cur.cwnd) : Stretch pto ps ∨ ∃ p ∈ ps, p.inFlight = true ∧ h.cut ≤ p.pn := by
  obtain ⟨h1, _, _⟩ := CcHist.step_ok hs
  have h1 : h.c.onLost f l pto ps = .ok h'.c := h1
  obtain ⟨_, _, c3⟩ := onLost_cases h1
  rcases c3 with c3 | ⟨_, _, _, c3⟩
  · rw [c3] at hlt; omega
  · rcases c3 with c3 | ⟨p, hp, hf, ha⟩
    · exact .inl c3
    · refine .inr ⟨p, hp, hf, Nat.le_of_not_lt fun hc => ?_⟩
      rw [hr.inv.not_after hc] at ha
      cases ha

/-- The same for a packet marked by the network. -/
theorem C30_reduced_once_ce (hr : CcReached m h) {p : Pkt} (_ : CcLegal m h (.ce p)) (hs : h.step (.ce p) = .ok h') (hlt : h'.c.cur.cwnd < h.c.cur.cwnd) :
    h.cut ≤ p.pn := by
  obtain ⟨h1, _, _⟩ := CcHist.step_ok hs
  injection h1 with h1
  have h1 : (h.c.congestion p true).1 = h'.c := h1
  rcases congestion_cases h.c p true with ⟨ha, _, _⟩ | ⟨_, q⟩
  · refine Nat.le_of_not_lt fun hc => ?_
    rw [hr.inv.not_after hc] at ha
    cases ha
  · rw [← h1, q] at hlt; omega

/-- Apart from persistent congestion the window is at most halved. -/
theorem C30_at_most_halved (_ : CcReached m h) {f l : Option Nat} {pto : Nat} {ps : List Pkt} (_ : CcLegal m h (.lost f l pto ps))
    (hs : h.step (.lost f l pto ps) = .ok h') (hn : ¬ Stretch pto ps) : h.c.cur.cwnd / 2 ≤ h'.c.cur.cwnd := by
  obtain ⟨h1, _, _⟩ := CcHist.step_ok hs
  exact onLost_half (show h.c.onLost f l pto ps = .ok h'.c from h1) hn

/-- When a packet sent after the last report of congestion is lost, and it is not a probe of the path MTU, the window is
reduced by three tenths or more, or to two datagrams. -/
theorem C30_loss_reduces (hr : CcReached m h) {f l : Option Nat} {pto : Nat} {ps : List Pkt} (hl : CcLegal m h (.lost f l pto ps))
    (hs : h.step (.lost f l pto ps) = .ok h') {p : Pkt} (hp : p ∈ ps) (hf : p.inFlight = true) (hm : p.pmtud = false) (hn : h.reported ≤ p.pn) :
    h'.c.cur.cwnd ≤ Nat.max (h.c.cur.cwnd * 70 / 100) (2 * h.c.mtu) := by
  obtain ⟨h1, _, _⟩ := CcHist.step_ok hs
  exact onLost_reduces (show h.c.onLost f l pto ps = .ok h'.c from h1) hp hf hm hl.2 fun q hq hle => hr.rep.after (hl.1 q hq) (Nat.le_trans hn hle)

/-- When a packet sent after the last report of congestion is marked by the network, the window is reduced by fifteen
hundredths or more, or to two datagrams. -/
theorem C30_ce_reduces (hr : CcReached m h) {p : Pkt} (hl : CcLegal m h (.ce p)) (hs : h.step (.ce p) = .ok h') (hn : h.reported ≤ p.pn) :
    h'.c.cur.cwnd ≤ Nat.max (h.c.cur.cwnd * 85 / 100) (2 * h.c.mtu) := by
  obtain ⟨h1, _, _⟩ := CcHist.step_ok hs
  injection h1 with h1
  have h1 : (h.c.congestion p true).1 = h'.c := h1
  rw [← h1]
  exact (congestion_half h.c p true).2 (hr.rep.after hl hn)

/-- Losses of packets sent before the reduction change nothing, that of one sent after does; a mark too. -/
example : (exCcStart [.lost none none 1000 [exCc 0 1200], .sent (exCc 18 1200), .lost none none 1000 [exCc 1 1200]]).map
    (fun h => (h.c.cur.cwnd, h.cut, h.reported)) = some (6000, 18, 19) := by decide +kernel
example : (exCcStart [.lost none none 1000 [exCc 0 1200], .sent (exCc 18 1200), .lost none none 1000 [exCc 18 1200]]).map
    (fun h => (h.c.cur.cwnd, h.cut)) = some (3000, 19) := by decide +kernel
example : (exCcStart [.ce (exCc 0 1200), .sent (exCc 18 1200), .ce (exCc 1 1200)]).map (fun h => (h.c.cur.cwnd, h.cut)) = some (6000, 18) := by decide +kernel

/-- Packets 0 to 4 are lost, and the time between them is more than three probe timeouts. -/
example : (exCcStart [.lost (some 0) none 1 ((List.range 5).map fun n => exCc n 1200)]).map (fun h => (h.c.cur.cwnd, h.c.cur.phase)) =
    some (2400, .persistent) := by decide +kernel
example : Stretch 1 ((List.range 5).map fun n => exCc n 1200) :=
  ⟨exCc 0 1200, by decide, exCc 4 1200, by decide, rfl, rfl, by decide, fun n _ h2 => ⟨exCc n 1200, by
    have : n ≤ 4 := h2
    exact List.mem_map.mpr ⟨n, List.mem_range.mpr (by omega), rfl⟩, rfl⟩⟩

/-! ## Growth -/

/-- Only acknowledgements make the window grow (a report of congestion may bring it up to the minimum). -/
theorem C30_grows_by_ack (_ : CcReached m h) {e : CcEv} (hs : h.step e = .ok h') (ha : ∀ ps now pto ss bfi, e ≠ .acked ps now pto ss bfi) :
    h'.c.cur.cwnd ≤ Nat.max h.c.cur.cwnd (2 * h.c.mtu) := by
  obtain ⟨h1, _, _⟩ := CcHist.step_ok hs
  cases e with
  | sent p =>
    injection h1 with h1
    obtain ⟨_, _, _, o4, _⟩ := h.c.onSent_eq p
    rw [← h1, o4, (exitTransient_facts h.c.cur p.pn).1]
    exact Nat.le_max_left _ _
  | acked ps now pto ss bfi => exact absurd rfl (ha ps now pto ss bfi)
  | ce p =>
    injection h1 with h1
    have h1 : (h.c.congestion p true).1 = h'.c := h1
    rw [← h1]
    exact congestion_cwnd _ _ _
  | lost f l pto ps =>
    have h1 : h.c.onLost f l pto ps = .ok h'.c := h1
    obtain ⟨_, _, c3⟩ := onLost_cases h1
    rcases c3 with c3 | ⟨_, _, c3, _⟩
    · rw [c3]; exact Nat.le_max_left _ _
    · exact c3
  | discard p =>
    have h1 : h.c.discard p = .ok h'.c := h1
    unfold Cc.discard at h1
    split at h1
    · split at h1
      · injection h1 with h1; rw [← h1]; exact Nat.le_max_left _ _
      · cases h1
    · injection h1 with h1; rw [← h1]; exact Nat.le_max_left _ _
  | clear => injection h1 with h1; rw [← h1]; exact Nat.le_max_left _ _
  | mtu n => injection h1 with h1; rw [← h1]; exact Nat.le_max_left _ _

theorem acked_facts (hr : CcReached m h) {ps : List Pkt} {now pto : Nat} {ss : SsIn} {bfi : Nat} (hl : CcLegal m h (.acked ps now pto ss bfi))
    (hs : h.step (.acked ps now pto ss bfi) = .ok h') (hn : ¬ LateAll h.c ps now pto) :
    h.c.onAcked ps now pto ss bfi = .ok h'.c ∧ ((h.c.cleanup now pto).detectSpurious ps).cur = h.c.cur ∧
    (h.c.cur.cwnd < h'.c.cur.cwnd → ∃ p ∈ ps, ∃ f, h.c.firstLimited = some f ∧ p.pn < f) ∧
    ((∀ p ∈ ps, h.c.afterRecovery p = false) → h'.c.cur.cwnd ≤ h.c.cur.cwnd + h.c.mtu) := by
  obtain ⟨h1, _, _⟩ := CcHist.step_ok hs
  have h1 : h.c.onAcked ps now pto ss bfi = .ok h'.c := h1
  obtain ⟨_, _, _, d4⟩ := detectSpurious_cases h.c ps now pto
  have hc := d4.resolve_right hn
  obtain ⟨_, _, _, _, _, _, _, f8, f9⟩ := onAcked_facts h1 (fun hlv => by rw [hc]; exact hl.2.2 hlv) (fun hp => by rw [hc] at hp ⊢; exact hr.inv.start hp)
  rw [hc] at f8 f9
  refine ⟨h1, hc, f8, fun ha => f9 fun p hp => ?_⟩
  have := ha p hp
  unfold Cc.afterRecovery at this ⊢
  rw [hc]; exact this

/-- An acknowledgement makes the window grow only if a packet it acknowledges was sent no later than one that was sent
while the window was being used, or if it shows that the last reduction was a mistake. -/
theorem C30_grows_if_used (hr : CcReached m h) {ps : List Pkt} {now pto : Nat} {ss : SsIn} {bfi : Nat} (hl : CcLegal m h (.acked ps now pto ss bfi))
    (hs : h.step (.acked ps now pto ss bfi) = .ok h') (hlt : h.c.cur.cwnd < h'.c.cur.cwnd) : LateAll h.c ps now pto ∨ ∃ p ∈ ps, ∃ n ∈ h.full, p.pn ≤ n := by
  by_cases hn : LateAll h.c ps now pto
  · exact .inl hn
  · obtain ⟨p, hp, f, hf, hpf⟩ := (acked_facts hr hl hs hn).2.2.1 hlt
    obtain ⟨n, hn', e⟩ := hr.inv.full f hf
    exact .inr ⟨p, hp, n, hn', by omega⟩

/-- Acknowledgements of packets sent before the last reduction make the window grow by no more than one datagram.  What
is missing: they should not make it grow, see below. -/
theorem C30_no_growth_in_recovery_partial (hr : CcReached m h) {ps : List Pkt} {now pto : Nat} {ss : SsIn} {bfi : Nat}
    (hl : CcLegal m h (.acked ps now pto ss bfi)) (hs : h.step (.acked ps now pto ss bfi) = .ok h') (hn : ¬ LateAll h.c ps now pto)
    (hp : ∀ p ∈ ps, p.pn < h.cut) : h'.c.cur.cwnd ≤ h.c.cur.cwnd + h.c.mtu :=
  (acked_facts hr hl hs hn).2.2.2 fun p hp' => hr.inv.not_after (hp p hp')

/-- In slow start, before there is a threshold, the window grows by no more than the bytes acknowledged. -/
theorem C30_slow_start_growth (hr : CcReached m h) {ps : List Pkt} {now pto : Nat} {ss : SsIn} {bfi : Nat} (hl : CcLegal m h (.acked ps now pto ss bfi))
    (hs : h.step (.acked ps now pto ss bfi) = .ok h') (hn : ¬ LateAll h.c ps now pto) (hst : h.c.cur.ssthresh = none) (hlv : ss.leave = false) :
    h'.c.cur.cwnd ≤ h.c.cur.cwnd + bytesOf ps := by
  obtain ⟨h1, h2, _, _⟩ := acked_facts hr hl hs hn
  exact onAcked_slow h1 h2 hst hlv

/-- In congestion avoidance NewReno grows the window by one datagram for each window of bytes acknowledged, rounded up. -/
theorem C30_avoidance_growth (hr : CcReached m h) {ps : List Pkt} {now pto : Nat} {ss : SsIn} {bfi s : Nat} (hl : CcLegal m h (.acked ps now pto ss bfi))
    (hs : h.step (.acked ps now pto ss bfi) = .ok h') (hn : ¬ LateAll h.c ps now pto) (ha : h.c.alg = .reno) (hst : h.c.cur.ssthresh = some s)
    (hle : s ≤ h.c.cur.cwnd) : h'.c.cur.cwnd ≤ h.c.cur.cwnd + (bytesOf ps / h.c.cur.cwnd + 1) * h.c.mtu := by
  obtain ⟨h1, h2, _, _⟩ := acked_facts hr hl hs hn
  exact onAcked_reno h1 h2 hst hle ha

/-- In slow start the window grows by what is acknowledged; the first five packets were sent before the window was used,
but an acknowledgement of the first of them counts as a later one was sent when it was. -/
example : (exCcStart [.acked [exCc 5 1] 100 1000 {} 1]).map (fun h => h.c.cur.cwnd) = some 12001 := by decide +kernel
example : (exCcStart [.acked [exCc 0 1200] 100 1000 {} 1]).map (fun h => (h.c.cur.cwnd, h.full)) =
    some (13200, [17, 16, 15, 14, 13, 12, 11, 10, 9, 8, 7, 6, 5]) := by decide +kernel
/-- If little is sent the window does not grow. -/
example : ((CcHist.new .reno 1200 true).run 1200 [.sent (exCc 0 1200), .acked [exCc 0 1200] 100 1000 {} 1]).map (fun h => (h.c.cur.cwnd, h.full)) =
    some (12000, []) := by decide +kernel

/-- Slow start is left with an odd window, then one byte less than a window is acknowledged. -/
def exCcOdd : Option CcHist :=
  exCcStart [.acked [exCc 5 1] 100 1000 {} 1, .acked [exCc 6 1200] 101 1000 { leave := true } 1,
    .acked ((List.range 9).map fun n => exCc (n + 7) 1200) 102 1000 {} 1, .lost none none 1000 [exCc 0 1200]]
example : exCcOdd.map (fun h => (h.c.cur.cwnd, h.c.cur.acked, h.cut)) = some (6000, 6000, 18) := by decide +kernel

/-- C30 does not hold in general: the window grows by a datagram when a packet sent before the reduction is acknowledged,
as the bytes acknowledged before it still count (classic_cc.rs:407-430, 919-922). -/
theorem C30_growth_in_recovery : ∃ h, CcReached 1200 h ∧ ∃ p h', p.pn < h.cut ∧ CcLegal 1200 h (.acked [p] 103 1000 {} 1) ∧
    h.step (.acked [p] 103 1000 {} 1) = .ok h' ∧ h.c.cur.phase = .recoveryStart ∧ h.c.cur.cwnd < h'.c.cur.cwnd := by
  have hx : (exCcOdd.map fun h => (decide ((exCc 1 1200).pn < h.cut), decide (CcLegal 1200 h (.acked [exCc 1 1200] 103 1000 {} 1)),
      decide (h.c.cur.phase = .recoveryStart), decide (h.c.cur.cwnd = 6000))) = some (true, true, true, true) := by decide +kernel
  have hy : (exCcOdd.bind fun h => h.run 1200 [.acked [exCc 1 1200] 103 1000 {} 1]).map (fun h => h.c.cur.cwnd) = some 7200 := by decide +kernel
  obtain ⟨h, hh, e⟩ := Option.map_eq_some_iff.mp hx
  simp only [Prod.mk.injEq, decide_eq_true_eq] at e
  obtain ⟨e1, e2, e3, e4⟩ := e
  rw [hh] at hy
  obtain ⟨h', hh', e'⟩ := Option.map_eq_some_iff.mp hy
  have hh' : h.run 1200 [.acked [exCc 1 1200] 103 1000 {} 1] = some h' := hh'
  unfold CcHist.run at hh'
  rw [if_pos e2] at hh'
  split at hh'
  · cases hh'
  · rename_i h₁ h1
    injection hh' with hh'
    subst hh'
    refine ⟨h, CcReached.run (.new (by decide) (by decide)) hh, exCc 1 1200, h₁, e1, e2, h1, e3, ?_⟩
    rw [e4, e']
    decide

/-! ## The whole of loss recovery -/

/-- In every history of loss recovery the window of the primary path, and of the others, is at least twice the least MTU. -/
theorem C30_window_floor_system_partial {g : Hist} (hr : Reached m g) : 2 * m ≤ g.s.cc.cur.cwnd ∧ ∀ x ∈ g.s.others, 2 * m ≤ x.2.cur.cwnd :=
  ⟨hr.inv.core.cc.cur.cwnd, fun x hx => (hr.inv.core.ccs x hx).1.cur.cwnd⟩

/-- C30 does not hold in general when there are several packet number spaces: the first packet sent after a reduction is
a handshake packet with a low number, and numbers are compared irrespective of the space (classic_cc.rs:850-863), so that
the loss of another packet that was sent before the first reduction reduces the window again. -/
theorem C30_reduced_twice_across_spaces :
    ∃ g₀ g₁ g₂ g₃ : Hist, ∃ o₂ o₃ a b, Reached 1200 g₀ ∧ Legal 1200 g₀ a ∧ g₀.step a = .ok (g₁, o₂) ∧ Reached 1200 g₂ ∧ Legal 1200 g₂ b ∧ g₂.step b = .ok (g₃, o₃) ∧
      g₁.s.cc.cur.cwnd < g₀.s.cc.cur.cwnd ∧ g₂.s.cc.cur.cwnd = g₁.s.cc.cur.cwnd ∧ g₃.s.cc.cur.cwnd < g₂.s.cc.cur.cwnd ∧
      o₃.lost.map Pkt.key = [(.app, 1)] ∧ (.app, 1) ∈ g₀.sent.map Pkt.key := by
  have run1 : ∀ {g g' : Hist} {e : Ev}, g.run 1200 [e] = some g' → Legal 1200 g e ∧ ∃ o, g.step e = .ok (g', o) := by
    intro g g' e he
    unfold Hist.run at he
    split at he
    · rename_i hl
      split at he
      · cases he
      · rename_i r hr
        injection he with he
        exact ⟨hl, r.2, by rw [hr, ← he]⟩
    · cases he
  let p0 : Option Hist := Hist.run 1200 (.new 100 100000000 1200 .reno true) ((List.range 10).map fun n => .send (exPkt n n) none)
  let a : Ev := .ack .app [(3, 3)] {} 50000000
  let b : Ev := .ack .app [(4, 4)] {} 50000001
  let hp : Ev := .send { pt := .handshake, pn := 0, eliciting := true, sent := 50000000, len := 1000 } none
  have e0 : p0.map (fun g => (g.s.cc.cur.cwnd, decide ((SpaceId.app, 1) ∈ g.sent.map Pkt.key))) = some (12000, true) := by decide +kernel
  have e1 : (p0.bind fun g => g.run 1200 [a]).map (fun g => g.s.cc.cur.cwnd) = some 6000 := by decide +kernel
  have e2 : ((p0.bind fun g => g.run 1200 [a]).bind fun g => g.run 1200 [hp]).map (fun g => (g.s.cc.cur.cwnd, g.lost)) = some (6000, [(.app, 0)]) := by decide +kernel
  have e3 : (((p0.bind fun g => g.run 1200 [a]).bind fun g => g.run 1200 [hp]).bind fun g => g.run 1200 [b]).map (fun g => (g.s.cc.cur.cwnd, g.lost)) =
    some (3000, [(.app, 0), (.app, 1)]) := by decide +kernel
  obtain ⟨g₀, h0, e0⟩ := Option.map_eq_some_iff.mp e0
  rw [h0] at e1 e2 e3
  simp only [Option.bind_some] at e1 e2 e3
  obtain ⟨g₁, h1, e1⟩ := Option.map_eq_some_iff.mp e1
  rw [h1] at e2 e3
  simp only [Option.bind_some] at e2 e3
  obtain ⟨g₂, h2, e2⟩ := Option.map_eq_some_iff.mp e2
  rw [h2] at e3
  simp only [Option.bind_some] at e3
  obtain ⟨g₃, h3, e3⟩ := Option.map_eq_some_iff.mp e3
  have r0 : Reached 1200 g₀ := Reached.run (.new (by decide) (by decide)) h0
  have r2 : Reached 1200 g₂ := (r0.run h1).run h2
  obtain ⟨l1, o1, s1⟩ := run1 h1
  obtain ⟨l3, o3, s3⟩ := run1 h3
  simp only [Prod.mk.injEq, decide_eq_true_eq] at e0 e2 e3
  refine ⟨g₀, g₁, g₂, g₃, o1, o3, a, b, r0, l1, s1, r2, l3, s3, by rw [e0.1, e1]; decide, by rw [e2.1, e1], by rw [e3.1, e2.1]; decide, ?_, e0.2⟩
  obtain ⟨s', k1, k2⟩ := Hist.step_ok s3
  have : g₃.lost = g₂.lost ++ o3.lost.map Pkt.key := by rw [k2]
  rw [e3.2, e2.2] at this
  exact (List.cons.inj this).2.symm

end Neqo.Rec
