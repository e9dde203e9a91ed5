import Verif.Recovery.SpaceInv

/-! # What the congestion controller's operations preserve -/
namespace Neqo.Rec

/-- The windows are at least twice `m`. -/
structure StOK (m : Nat) (st : CcSt) : Prop where
  cwnd : 2 * m ≤ st.cwnd
  ssthresh : ∀ s, st.ssthresh = some s → 2 * m ≤ s

structure CcOK (m : Nat) (c : Cc) : Prop where
  pos : 0 < m
  mtu : m ≤ c.mtu
  cur : StOK m c.cur
  stored : ∀ st, c.stored = some st → StOK m st

theorem CcOK.new {m alg mtu sp} (hm : 0 < m) (h : m ≤ mtu) : CcOK m (Cc.new alg mtu sp) where
  pos := hm
  mtu := h
  cur := {
    cwnd := by
      show 2 * m ≤ Nat.min (10 * mtu) (Nat.max (2 * mtu) 14720)
      exact Nat.le_min.mpr ⟨by omega, Nat.le_trans (by omega) (Nat.le_max_left _ _)⟩
    ssthresh := fun s hs => by cases hs }
  stored := fun st hs => by cases hs

/-- The bytes a packet has in flight on the primary path, if it is not lost. -/
def outLen (p : Pkt) : Nat := if p.outstanding then p.len else 0

/-- The bytes a packet has in flight on the primary path, lost or not. -/
def flightLen (p : Pkt) : Nat := if p.inFlight then p.len else 0

/-! ## Sending -/

theorem StOK.exit {m st pn} (h : StOK m st) : StOK m (st.exitTransient pn) := by
  unfold CcSt.exitTransient
  split
  · exact ⟨h.cwnd, h.ssthresh⟩
  · exact h

theorem Cc.onSent_eq (c : Cc) (p : Pkt) :
    (c.onSent p).flight = c.flight + flightLen p ∧ (c.onSent p).maybeLost = c.maybeLost ∧ (c.onSent p).mtu = c.mtu ∧
    (c.onSent p).cur = c.cur.exitTransient p.pn ∧ (c.onSent p).stored = c.stored ∧ (c.onSent p).alg = c.alg := by
  unfold Cc.onSent flightLen
  simp only
  split
  · split <;> simp
  · simp

theorem CcOK.onSent {m c p} (h : CcOK m c) : CcOK m (c.onSent p) := by
  obtain ⟨_, _, h3, h4, h5, _⟩ := c.onSent_eq p
  exact ⟨h.pos, by rw [h3]; exact h.mtu, by rw [h4]; exact h.cur.exit, by rw [h5]; exact h.stored⟩

/-! ## Congestion -/

theorem Cc.congestion_eq (c : Cc) (p : Pkt) (ecn : Bool) :
    (c.congestion p ecn).1.flight = c.flight ∧ (c.congestion p ecn).1.maybeLost = c.maybeLost ∧ (c.congestion p ecn).1.mtu = c.mtu := by
  unfold Cc.congestion
  split <;> exact ⟨rfl, rfl, rfl⟩

theorem CcOK.congestion {m c p ecn} (h : CcOK m c) : CcOK m (c.congestion p ecn).1 := by
  unfold Cc.congestion
  split
  · have hw : 2 * m ≤ Nat.max (c.alg.reduce ecn c.cur.cwnd) c.min := by
      refine Nat.le_trans ?_ (Nat.le_max_right _ _)
      unfold Cc.min; have := h.mtu; omega
    refine ⟨h.pos, h.mtu, ⟨hw, fun s hs => ?_⟩, fun st hs => ?_⟩
    · injection hs with hs; exact hs ▸ hw
    · simp only at hs
      split at hs
      · exact h.stored st hs
      · injection hs with hs; exact hs ▸ h.cur
  · exact h

theorem persistLoop_ok (period : Nat) : ∀ (ps : List Pkt) (last start : Option Nat), Timed ps →
    (∀ t, start = some t → ∀ p ∈ ps, t ≤ p.sent) → ∃ b, persistLoop period last start ps = .ok b := by
  intro ps
  induction ps with
  | nil => intro _ _ _ _; exact ⟨false, rfl⟩
  | cons p ps ih =>
    intro last start ht hs
    have ht' : Timed ps := (List.pairwise_cons.mp ht).2
    have hp : ∀ q ∈ ps, p.sent ≤ q.sent := (List.pairwise_cons.mp ht).1
    unfold persistLoop
    simp only
    have hs' : ∀ t, (if last = some (p.pn - 1) ∧ p.pn ≠ 0 then start else none) = some t → ∀ q ∈ p :: ps, t ≤ q.sent := by
      intro t h
      split at h
      · exact hs t h
      · cases h
    generalize (if last = some (p.pn - 1) ∧ p.pn ≠ 0 then start else none) = st at hs'
    split
    · cases st with
      | none => exact ih _ _ ht' (fun t h q hq => by injection h with h; exact h ▸ hp q hq)
      | some t =>
        simp only
        have := hs' t rfl p List.mem_cons_self
        rw [if_neg (by omega)]
        split
        · exact ⟨true, rfl⟩
        · exact ih _ _ ht' (fun u h q hq => hs' u h q (List.mem_cons_of_mem _ hq))
    · exact ih _ _ ht' (fun u h q hq => hs' u h q (List.mem_cons_of_mem _ hq))

theorem Cc.persistent_ok (c : Cc) (first prev : Option Nat) (pto : Nat) {lost : List Pkt} (ht : Timed lost) :
    ∃ c', c.persistent first prev pto lost = .ok c' ∧
      (c' = c ∨ c' = { c with cur := { c.cur with cwnd := c.min, acked := 0, phase := .persistent } }) := by
  unfold Cc.persistent
  cases first with
  | none => exact ⟨c, rfl, .inl rfl⟩
  | some f =>
    simp only
    have ht' : Timed (lost.dropWhile fun p => decide (p.sent < (optMax (some f) prev).getD 0)) :=
      List.Pairwise.sublist (List.dropWhile_sublist _) ht
    obtain ⟨b, hb⟩ := persistLoop_ok (pto * 3) _ none none ht' (fun t h => by cases h)
    rw [hb]
    cases b with
    | false => exact ⟨c, rfl, .inl rfl⟩
    | true => exact ⟨_, rfl, .inr rfl⟩

/-! ## Lost packets -/

/-- What is remembered of lost packets. -/
def remembered (p : Pkt) : Bool := p.inFlight && !p.pmtud

/-- The controller after the loop over lost packets. -/
def Cc.withLost (c : Cc) (lost : List Pkt) : Cc :=
  { c with flight := c.flight - total flightLen lost, maybeLost := ((lost.filter remembered).map fun p => (p.pt, p.pn, p.sent)).reverse ++ c.maybeLost }

theorem Cc.lostAll_ok : ∀ (lost : List Pkt) (c : Cc), Sorted lost →
    (∀ e ∈ c.maybeLost, ∀ p ∈ lost, ¬ (e.1 = p.pt ∧ e.2.1 = p.pn)) → c.lostAll lost = .ok (c.withLost lost) := by
  intro lost
  induction lost with
  | nil => intro c _ _; unfold Cc.lostAll Cc.withLost; simp
  | cons p ps ih =>
    intro c hs hm
    have hs' : Sorted ps := (List.pairwise_cons.mp hs).2
    have hp : ∀ q ∈ ps, p.pn < q.pn := (List.pairwise_cons.mp hs).1
    unfold Cc.lostAll Cc.lostOne
    by_cases hf : p.inFlight = true
    · rw [if_pos hf]
      simp only
      by_cases hm' : p.pmtud = true
      · rw [if_pos hm']
        simp only
        rw [ih { c with flight := c.flight - p.len } hs' (fun e he q hq => hm e he q (List.mem_cons_of_mem _ hq))]
        have hr : remembered p = false := by unfold remembered; rw [hm']; simp
        unfold Cc.withLost
        rw [List.filter_cons_of_neg (by simp [hr]), total_cons, show flightLen p = p.len by unfold flightLen; rw [if_pos hf], Nat.sub_sub]
      · rw [if_neg hm', if_neg]
        · simp only
          rw [ih _ hs']
          · have hr : remembered p = true := by unfold remembered; rw [hf]; simp [hm']
            unfold Cc.withLost
            rw [List.filter_cons_of_pos hr, total_cons, show flightLen p = p.len by unfold flightLen; rw [if_pos hf], Nat.sub_sub]
            simp
          · intro e he q hq
            rcases List.mem_cons.mp he with rfl | he
            · rintro ⟨_, h⟩
              have := hp q hq
              simp only at h
              omega
            · exact hm e he q (List.mem_cons_of_mem _ hq)
        · intro hc
          obtain ⟨e, he, h⟩ := List.any_eq_true.mp hc
          exact hm e he p List.mem_cons_self (of_decide_eq_true h)
    · rw [if_neg hf]
      simp only
      rw [ih _ hs' (fun e he q hq => hm e he q (List.mem_cons_of_mem _ hq))]
      have hr : remembered p = false := by unfold remembered; simp [hf]
      unfold Cc.withLost
      rw [List.filter_cons_of_neg (by simp [hr]), total_cons, show flightLen p = 0 by unfold flightLen; rw [if_neg hf], Nat.zero_add]

theorem Cc.onLost_ok {m : Nat} {c : Cc} (hc : CcOK m c) (first prev : Option Nat) (pto : Nat) {lost : List Pkt} (hs : Sorted lost) (ht : Timed lost)
    (hm : ∀ e ∈ c.maybeLost, ∀ p ∈ lost, ¬ (e.1 = p.pt ∧ e.2.1 = p.pn)) :
    ∃ c', c.onLost first prev pto lost = .ok c' ∧ CcOK m c' ∧ c'.flight = c.flight - total flightLen lost ∧
      c'.maybeLost = (c.withLost lost).maybeLost ∧ c'.mtu = c.mtu := by
  have hw : CcOK m (c.withLost lost) := ⟨hc.pos, hc.mtu, hc.cur, hc.stored⟩
  unfold Cc.onLost
  rw [Cc.lostAll_ok lost c hs hm]
  simp only
  cases hl : ((lost.filter fun p => !p.pmtud).filter (·.inFlight)).getLast? with
  | none => exact ⟨_, rfl, hw, rfl, rfl, rfl⟩
  | some last =>
    simp only
    obtain ⟨e1, e2, e3⟩ := (c.withLost lost).congestion_eq last false
    have h1 : CcOK m ((c.withLost lost).congestion last false).1 := hw.congestion
    obtain ⟨c', h, heq⟩ := Cc.persistent_ok ((c.withLost lost).congestion last false).1 first prev pto
      (List.Pairwise.filter (fun p => !p.pmtud) ht)
    refine ⟨c', h, ?_⟩
    rcases heq with rfl | rfl
    · exact ⟨h1, e1, e2, e3⟩
    · refine ⟨⟨h1.pos, h1.mtu, ⟨?_, h1.cur.ssthresh⟩, h1.stored⟩, e1, e2, e3⟩
      show 2 * m ≤ Cc.min _
      unfold Cc.min
      have := h1.mtu
      omega

/-! ## Acknowledged packets -/

theorem CcOK.setPhase {m c ph} (h : CcOK m c) : CcOK m { c with cur := { c.cur with phase := ph } } :=
  ⟨h.pos, h.mtu, ⟨h.cur.cwnd, h.cur.ssthresh⟩, h.stored⟩

theorem Cc.ackOne_ok {m : Nat} {c : Cc} (h : CcOK m c) (l : Bool) (n : Nat) (p : Pkt) :
    CcOK m (c.ackOne l n p).1 ∧ (c.ackOne l n p).1.flight = c.flight - outLen p ∧ (c.ackOne l n p).1.maybeLost = c.maybeLost ∧
    (c.ackOne l n p).1.mtu = c.mtu ∧ (c.ackOne l n p).1.cur.cwnd = c.cur.cwnd := by
  unfold Cc.ackOne outLen
  split
  · simp only
    split
    · split
      · exact ⟨⟨h.pos, h.mtu, ⟨h.cur.cwnd, h.cur.ssthresh⟩, h.stored⟩, rfl, rfl, rfl, rfl⟩
      · exact ⟨⟨h.pos, h.mtu, h.cur, h.stored⟩, rfl, rfl, rfl, rfl⟩
    · exact ⟨⟨h.pos, h.mtu, h.cur, h.stored⟩, rfl, rfl, rfl, rfl⟩
  · exact ⟨h, rfl, rfl, rfl, rfl⟩

theorem Cc.ackLoop_ok {m : Nat} : ∀ (ps : List Pkt) {c : Cc} (_ : CcOK m c) (l : Bool) (n : Nat),
    CcOK m (c.ackLoop l n ps).1 ∧ (c.ackLoop l n ps).1.flight = c.flight - total outLen ps ∧ (c.ackLoop l n ps).1.maybeLost = c.maybeLost ∧
    (c.ackLoop l n ps).1.mtu = c.mtu ∧ (c.ackLoop l n ps).1.cur.cwnd = c.cur.cwnd := by
  intro ps
  induction ps with
  | nil => intro c h l n; exact ⟨h, rfl, rfl, rfl, rfl⟩
  | cons p ps ih =>
    intro c h l n
    obtain ⟨a1, a2, a3, a4, a5⟩ := Cc.ackOne_ok h l n p
    obtain ⟨b1, b2, b3, b4, b5⟩ := ih a1 (c.ackOne l n p).2.1 (c.ackOne l n p).2.2
    unfold Cc.ackLoop
    refine ⟨b1, ?_, b3.trans a3, b4.trans a4, b5.trans a5⟩
    rw [b2, a2, total_cons, Nat.sub_sub]

theorem Cc.growSlow_ok {m : Nat} {c : Cc} (h : CcOK m c) (ss : SsIn) (n : Nat) :
    CcOK m (c.growSlow ss n) ∧ (c.growSlow ss n).flight = c.flight ∧ (c.growSlow ss n).maybeLost = c.maybeLost ∧ (c.growSlow ss n).mtu = c.mtu := by
  unfold Cc.growSlow
  split
  · split
    · exact ⟨⟨h.pos, h.mtu, ⟨h.cur.cwnd, fun s hs => by injection hs with hs; exact hs ▸ h.cur.cwnd⟩, h.stored⟩, rfl, rfl, rfl⟩
    · simp only
      have := h.cur.cwnd
      cases hss : c.cur.ssthresh with
      | none => exact ⟨⟨h.pos, h.mtu, ⟨by show 2 * m ≤ c.cur.cwnd + _; omega, fun s hs => h.cur.ssthresh s (by first | exact hs | exact hss.trans hs)⟩, h.stored⟩, rfl, rfl, rfl⟩
      | some s =>
        simp only
        split
        · exact ⟨⟨h.pos, h.mtu, ⟨h.cur.ssthresh s hss, fun s hs => h.cur.ssthresh s (hss.trans hs)⟩, h.stored⟩, rfl, rfl, rfl⟩
        · exact ⟨⟨h.pos, h.mtu, ⟨by show 2 * m ≤ c.cur.cwnd + _; omega, fun s hs => h.cur.ssthresh s (by first | exact hs | exact hss.trans hs)⟩, h.stored⟩, rfl, rfl, rfl⟩
  · exact ⟨h, rfl, rfl, rfl⟩

theorem Cc.growAvoid_ok {m : Nat} {c : Cc} (h : CcOK m c) {bfi : Nat} (hb : 0 < bfi) (n : Nat) :
    ∃ c', c.growAvoid bfi n = .ok c' ∧ CcOK m c' ∧ c'.flight = c.flight ∧ c'.maybeLost = c.maybeLost ∧ c'.mtu = c.mtu := by
  unfold Cc.growAvoid
  have := h.cur.cwnd
  split
  · simp only
    rw [if_neg]
    · exact ⟨_, rfl, ⟨h.pos, h.mtu, ⟨by show 2 * m ≤ c.cur.cwnd + _; omega, h.cur.ssthresh⟩, h.stored⟩, rfl, rfl, rfl⟩
    · unfold Cc.bytesFor
      have := h.pos
      split <;> omega
  · exact ⟨c, rfl, h, rfl, rfl, rfl⟩

theorem Cc.detectSpurious_ok {m : Nat} {c : Cc} (h : CcOK m c) (acked : List Pkt) :
    CcOK m (c.detectSpurious acked) ∧ (c.detectSpurious acked).flight = c.flight ∧ (∀ e ∈ (c.detectSpurious acked).maybeLost, e ∈ c.maybeLost) ∧
    (c.detectSpurious acked).mtu = c.mtu := by
  unfold Cc.detectSpurious
  split
  · exact ⟨h, rfl, fun e he => he, rfl⟩
  · simp only
    split
    · unfold Cc.onSpurious
      cases hst : c.stored with
      | none => exact ⟨⟨h.pos, h.mtu, h.cur, fun st hs => by cases hs⟩, rfl, fun e he => (List.mem_filter.mp he).1, rfl⟩
      | some st =>
        simp only
        split
        · exact ⟨⟨h.pos, h.mtu, h.cur, fun st hs => by cases hs⟩, rfl, fun e he => (List.mem_filter.mp he).1, rfl⟩
        · exact ⟨⟨h.pos, h.mtu, h.stored st hst, fun st hs => by cases hs⟩, rfl, fun e he => (List.mem_filter.mp he).1, rfl⟩
    · exact ⟨⟨h.pos, h.mtu, h.cur, h.stored⟩, rfl, fun e he => (List.mem_filter.mp he).1, rfl⟩

theorem Cc.onAcked_ok {m : Nat} {c : Cc} (h : CcOK m c) (acked : List Pkt) (now ptoTrue : Nat) (ss : SsIn) {bfi : Nat} (hb : 0 < bfi) :
    ∃ c', c.onAcked acked now ptoTrue ss bfi = .ok c' ∧ CcOK m c' ∧ c'.flight = c.flight - total outLen acked ∧
      (∀ e ∈ c'.maybeLost, e ∈ c.maybeLost) ∧ c'.mtu = c.mtu := by
  have h0 : CcOK m (c.cleanup now ptoTrue) := ⟨h.pos, h.mtu, h.cur, h.stored⟩
  obtain ⟨a1, a2, a3, a4⟩ := Cc.detectSpurious_ok h0 acked
  have a3' : ∀ e ∈ ((c.cleanup now ptoTrue).detectSpurious acked).maybeLost, e ∈ c.maybeLost :=
    fun e he => (List.mem_filter.mp (a3 e he)).1
  obtain ⟨b1, b2, b3, b4, _⟩ := Cc.ackLoop_ok acked a1 true 0
  unfold Cc.onAcked
  simp only
  generalize ((c.cleanup now ptoTrue).detectSpurious acked) = d at *
  have hfl : (d.ackLoop true 0 acked).1.flight = c.flight - total outLen acked := by rw [b2, a2]; rfl
  have hmtu : (d.ackLoop true 0 acked).1.mtu = c.mtu := by rw [b4, a4]; rfl
  split
  · exact ⟨_, rfl, b1, hfl, fun e he => a3' e (b3 ▸ he), hmtu⟩
  · obtain ⟨d1, d2, d3, d4⟩ := Cc.growSlow_ok b1 ss (d.ackLoop true 0 acked).2.2
    obtain ⟨c', e1, e2, e3, e4, e5⟩ := Cc.growAvoid_ok d1 hb (d.ackLoop true 0 acked).2.2
    exact ⟨c', e1, e2, by rw [e3, d2, hfl], fun e he => a3' e (b3 ▸ d3 ▸ e4 ▸ he), by rw [e5, d4, hmtu]⟩

theorem Cc.pathAcked_ok {m : Nat} {c : Cc} (h : CcOK m c) (acked : List Pkt) (top : Pkt) (now ptoTrue : Nat) {i : AckIn} (hb : 0 < i.bfi) :
    ∃ c', c.pathAcked acked top now ptoTrue i = .ok c' ∧ CcOK m c' ∧ c'.flight = c.flight - total outLen acked ∧
      (∀ e ∈ c'.maybeLost, e ∈ c.maybeLost) ∧ c'.mtu = c.mtu := by
  unfold Cc.pathAcked
  obtain ⟨e1, e2, e3⟩ := c.congestion_eq top true
  by_cases hce : i.ce = true
  · rw [if_pos hce]
    obtain ⟨c', a, b, d, e, f⟩ := Cc.onAcked_ok (c := c.onCe top) h.congestion acked now ptoTrue i.ss hb
    exact ⟨c', a, b, by rw [d]; unfold Cc.onCe; rw [e1], fun x hx => e2 ▸ e x hx, f.trans e3⟩
  · rw [if_neg hce]
    exact Cc.onAcked_ok h acked now ptoTrue i.ss hb

end Neqo.Rec
