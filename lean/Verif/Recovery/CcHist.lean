import Verif.Recovery.PropsPto

/-! # Histories of the congestion window (C30)

This file looks at the congestion controller of one path alone. -/
namespace Neqo.Rec

/-! ## Specification -/

/-- The calls made on a congestion controller. -/
inductive CcEv where
  | sent (p : Pkt)
  | acked (ps : List Pkt) (now pto : Nat) (ss : SsIn) (bfi : Nat)
  | ce (p : Pkt)
  | lost (first prevLargest : Option Nat) (pto : Nat) (ps : List Pkt)
  | discard (p : Pkt)
  | clear
  | mtu (n : Nat)

def Cc.step (c : Cc) : CcEv → Except Err Cc
  | .sent p => .ok (c.onSent p)
  | .acked ps now pto ss bfi => c.onAcked ps now pto ss bfi
  | .ce p => .ok (c.onCe p)
  | .lost f l pto ps => c.onLost f l pto ps
  | .discard p => c.discard p
  | .clear => .ok { c with flight := 0 }
  | .mtu n => .ok { c with mtu := n }

/-- The window is being used: in slow start half of it is in flight, otherwise all but two datagrams. -/
def Full (c : Cc) : Prop :=
  if c.cur.phase = .slowStart ∨ c.cur.phase = .persistent then c.cur.cwnd / 2 ≤ c.flight else c.cur.cwnd ≤ c.flight + 2 * c.mtu

instance (c : Cc) : Decidable (Full c) := by unfold Full; infer_instance

/-- There are packets that were declared lost in the last two probe timeouts, and now all of those have been
acknowledged: they were not lost after all. -/
def LateAll (c : Cc) (acked : List Pkt) (now pto : Nat) : Prop :=
  let recent := c.maybeLost.filter fun e => decide (now ≤ e.2.2 + 2 * pto)
  recent ≠ [] ∧ ∀ e ∈ recent, ∃ p ∈ acked, p.pt = e.1 ∧ p.pn = e.2.1

instance (c acked now pto) : Decidable (LateAll c acked now pto) := by unfold LateAll; infer_instance

/-- A controller and what was observed. -/
structure CcHist where
  c : Cc
  /-- A number above those of all packets sent. -/
  next : Nat
  /-- The packets numbered less than this were sent before the last reduction of the window (that was not found
  to be a mistake). -/
  cut : Nat
  /-- The packets sent while the window was being used. -/
  full : List Nat
  /-- The packets sent. -/
  sent : List Nat
  /-- The packets numbered less than this were sent before the last time congestion was reported. -/
  reported : Nat

def CcHist.new (alg : Alg) (mtu : Nat) (spurious : Bool) : CcHist := ⟨Cc.new alg mtu spurious, 0, 0, [], [], 0⟩

def CcHist.step (h : CcHist) (e : CcEv) : Except Err CcHist :=
  match h.c.step e with
  | .error x => .error x
  | .ok c =>
    match e with
    | .sent p => .ok { h with c := c, next := p.pn + 1, full := if p.inFlight ∧ Full h.c then p.pn :: h.full else h.full, sent := p.pn :: h.sent }
    | .acked ps now pto _ _ => .ok { h with c := c, cut := if LateAll h.c ps now pto then 0 else h.cut }
    | .ce _ => .ok { h with c := c, cut := if c.cur.cwnd < h.c.cur.cwnd then h.next else h.cut, reported := h.next }
    | .lost _ _ _ ps => .ok { h with c := c, cut := if c.cur.cwnd < h.c.cur.cwnd then h.next else h.cut, reported := if ps = [] then h.reported else h.next }
    | _ => .ok { h with c := c }

/-- Packet numbers increase (so that this is about packets of one packet number space), only packets that were
sent are acknowledged, marked or lost, those lost are reported in order, and slow start is not left before something was sent after persistent
congestion (hystart.rs:300-305 with 224-231, search.rs:229-232 with 236-239). -/
def CcLegal (m : Nat) (h : CcHist) : CcEv → Prop
  | .sent p => h.next ≤ p.pn
  | .acked ps _ _ ss bfi => (∀ p ∈ ps, p.pn ∈ h.sent) ∧ 0 < bfi ∧ (ss.leave = true → h.c.cur.phase ≠ .persistent)
  | .ce p => p.pn ∈ h.sent
  | .lost _ _ _ ps => (∀ p ∈ ps, p.pn ∈ h.sent) ∧ ps.Pairwise fun a b => a.pn < b.pn
  | .mtu n => m ≤ n
  | _ => True

inductive CcReached (m : Nat) : CcHist → Prop
  | new {alg mtu sp} (hm : 0 < m) (hmtu : m ≤ mtu) : CcReached m (.new alg mtu sp)
  | step {h h' e} : CcReached m h → CcLegal m h e → h.step e = .ok h' → CcReached m h'

/-- Persistent congestion (RFC 9002, section 7.6): two packets sent more than three probe timeouts apart are lost
and so is all that was sent between them. -/
def Stretch (pto : Nat) (lost : List Pkt) : Prop :=
  ∃ a ∈ lost, ∃ b ∈ lost, a.inFlight = true ∧ b.inFlight = true ∧ a.sent + 3 * pto < b.sent ∧ ∀ n, a.pn ≤ n → n ≤ b.pn → ∃ p ∈ lost, p.pn = n

/-- The bytes in some packets. -/
def bytesOf (ps : List Pkt) : Nat := (ps.map (·.len)).sum

instance (m h e) : Decidable (CcLegal m h e) := by
  cases e <;> (unfold CcLegal; infer_instance)

/-- Make calls that are checked to be legal. -/
def CcHist.run (m : Nat) : CcHist → List CcEv → Option CcHist
  | h, [] => some h
  | h, e :: es => if CcLegal m h e then
      match h.step e with
      | .error _ => none
      | .ok h => CcHist.run m h es
    else none

theorem CcReached.run {m : Nat} {h : CcHist} (hr : CcReached m h) : ∀ {es : List CcEv} {h' : CcHist}, h.run m es = some h' → CcReached m h' := by
  intro es
  induction es generalizing h with
  | nil => intro h' he; injection he with he; exact he ▸ hr
  | cons e es ih =>
    intro h' he
    unfold CcHist.run at he
    split at he
    · rename_i hl
      split at he
      · cases he
      · rename_i h₁ h1
        exact ih (.step hr hl h1) he
    · cases he

/-! ## Lemmas -/

variable {m : Nat} {h h' : CcHist} {e : CcEv}

theorem full_iff (c : Cc) (pn : Nat) : ({ c with cur := c.cur.exitTransient pn } : Cc).appLimited = false ↔ Full c := by
  unfold Cc.appLimited Full CcSt.exitTransient Phase.transient Phase.update
  cases hp : c.cur.phase <;> simp [hp] <;> omega

theorem onSent_limited (c : Cc) (p : Pkt) : (c.onSent p).firstLimited = if p.inFlight ∧ Full c then some (p.pn + 1) else c.firstLimited := by
  unfold Cc.onSent
  simp only
  by_cases hf : p.inFlight = true
  · rw [if_pos hf]
    cases ha : ({ c with cur := c.cur.exitTransient p.pn } : Cc).appLimited with
    | true =>
      have : ¬ Full c := by rw [← full_iff c p.pn, ha]; decide
      rw [if_neg (show ¬ (p.inFlight = true ∧ Full c) from fun hc => this hc.2)]
      simp
    | false =>
      rw [if_pos (show p.inFlight = true ∧ Full c from ⟨hf, (full_iff c p.pn).mp ha⟩)]
      simp
  · rw [if_neg hf, if_neg (show ¬ (p.inFlight = true ∧ Full c) from fun hc => hf hc.1)]

theorem congestion_limited (c : Cc) (p : Pkt) (ecn : Bool) : (c.congestion p ecn).1.firstLimited = c.firstLimited := by
  unfold Cc.congestion
  split <;> rfl

theorem congestion_mtu (c : Cc) (p : Pkt) (ecn : Bool) : (c.congestion p ecn).1.mtu = c.mtu := by
  unfold Cc.congestion
  split <;> rfl

theorem reduce_le (a : Alg) (ecn : Bool) (x : Nat) : a.reduce ecn x ≤ x := by
  unfold Alg.reduce
  cases a
  · exact Nat.div_le_self _ _
  · cases ecn <;> simp <;> omega

theorem congestion_cwnd (c : Cc) (p : Pkt) (ecn : Bool) : (c.congestion p ecn).1.cur.cwnd ≤ Nat.max c.cur.cwnd (2 * c.mtu) := by
  unfold Cc.congestion
  split
  · have := reduce_le c.alg ecn c.cur.cwnd
    show Nat.max (c.alg.reduce ecn c.cur.cwnd) (c.mtu * 2) ≤ _
    exact Nat.max_le.mpr ⟨Nat.le_trans this (Nat.le_max_left _ _), by rw [Nat.mul_comm]; exact Nat.le_max_right _ _⟩
  · exact Nat.le_max_left _ _

theorem congestion_cases (c : Cc) (p : Pkt) (ecn : Bool) :
    (c.afterRecovery p = true ∧ (c.congestion p ecn).1.cur.phase = .recoveryStart ∧ 2 * c.mtu ≤ (c.congestion p ecn).1.cur.cwnd) ∨
    (c.afterRecovery p = false ∧ (c.congestion p ecn).1 = c) := by
  unfold Cc.congestion
  cases ha : c.afterRecovery p with
  | true =>
    refine .inl ⟨rfl, ?_, ?_⟩
    · simp only [if_true]
    · simp only [if_true]
      unfold Cc.min
      rw [Nat.mul_comm]
      exact Nat.le_max_right _ _
  | false => exact .inr ⟨rfl, by simp⟩

theorem lostAll_cur : ∀ {ps : List Pkt} {c c' : Cc}, c.lostAll ps = .ok c' → c'.cur = c.cur ∧ c'.firstLimited = c.firstLimited ∧ c'.mtu = c.mtu ∧ c'.stored = c.stored ∧ c'.alg = c.alg := by
  intro ps
  induction ps with
  | nil => intro c c' h; unfold Cc.lostAll at h; injection h with h; rw [h]; exact ⟨rfl, rfl, rfl, rfl, rfl⟩
  | cons p ps ih =>
    intro c c' h
    unfold Cc.lostAll at h
    split at h
    · cases h
    · rename_i c₁ h1
      obtain ⟨a1, a2, a3, a4, a5⟩ := ih h
      have e : c₁.cur = c.cur ∧ c₁.firstLimited = c.firstLimited ∧ c₁.mtu = c.mtu ∧ c₁.stored = c.stored ∧ c₁.alg = c.alg := by
        unfold Cc.lostOne at h1
        simp only at h1
        split at h1
        · split at h1
          · injection h1 with h1; rw [← h1]; exact ⟨rfl, rfl, rfl, rfl, rfl⟩
          · split at h1
            · cases h1
            · injection h1 with h1; rw [← h1]; exact ⟨rfl, rfl, rfl, rfl, rfl⟩
        · injection h1 with h1; rw [← h1]; exact ⟨rfl, rfl, rfl, rfl, rfl⟩
      exact ⟨a1.trans e.1, a2.trans e.2.1, a3.trans e.2.2.1, a4.trans e.2.2.2.1, a5.trans e.2.2.2.2⟩

/-- Where the loop over lost packets finds persistent congestion there is such a stretch. -/
theorem persistLoop_stretch {period : Nat} {all : List Pkt} : ∀ {ps : List Pkt} {last start : Option Nat}, (∀ p ∈ ps, p ∈ all) →
    (∀ t, start = some t → ∃ a ∈ all, a.inFlight = true ∧ a.sent = t ∧ ∃ l, last = some l ∧ ∀ n, a.pn ≤ n → n ≤ l → ∃ p ∈ all, p.pn = n) →
    persistLoop period last start ps = .ok true →
    ∃ a ∈ all, ∃ b ∈ all, a.inFlight = true ∧ b.inFlight = true ∧ a.sent + period < b.sent ∧ ∀ n, a.pn ≤ n → n ≤ b.pn → ∃ p ∈ all, p.pn = n := by
  intro ps
  induction ps with
  | nil => intro last start _ _ h; unfold persistLoop at h; cases h
  | cons p ps ih =>
    intro last start hall hst h
    have hp := hall p List.mem_cons_self
    have hall' : ∀ q ∈ ps, q ∈ all := fun q hq => hall q (List.mem_cons_of_mem _ hq)
    unfold persistLoop at h
    simp only at h
    -- what is known of the start after the check for continuity
    have hst' : ∀ t, (if last = some (p.pn - 1) ∧ p.pn ≠ 0 then start else none) = some t →
        ∃ a ∈ all, a.inFlight = true ∧ a.sent = t ∧ ∀ n, a.pn ≤ n → n ≤ p.pn → ∃ q ∈ all, q.pn = n := by
      intro t ht
      split at ht
      · rename_i hc
        obtain ⟨a, ha, h1, h2, l, h3, h4⟩ := hst t ht
        refine ⟨a, ha, h1, h2, fun n hn hn' => ?_⟩
        rw [hc.1] at h3
        injection h3 with h3
        by_cases hx : n = p.pn
        · exact ⟨p, hp, hx.symm⟩
        · exact h4 n hn (by omega)
      · cases ht
    generalize (if last = some (p.pn - 1) ∧ p.pn ≠ 0 then start else none) = st at h hst'
    split at h
    · rename_i hf
      cases st with
      | none =>
        simp only at h
        refine ih hall' (fun t ht => ?_) h
        injection ht with ht
        exact ⟨p, hp, hf, ht, p.pn, rfl, fun n h1 h2 => ⟨p, hp, by omega⟩⟩
      | some t =>
        simp only at h
        obtain ⟨a, ha, h1, h2, h3⟩ := hst' t rfl
        split at h
        · cases h
        · split at h
          · exact ⟨a, ha, p, hp, h1, hf, by omega, h3⟩
          · refine ih hall' (fun u hu => ?_) h
            injection hu with hu
            exact ⟨a, ha, h1, h2.trans hu, p.pn, rfl, h3⟩
    · refine ih hall' (fun u hu => ?_) h
      obtain ⟨a, ha, h1, h2, h3⟩ := hst' u hu
      exact ⟨a, ha, h1, h2, p.pn, rfl, h3⟩

theorem persistent_cases {c c' : Cc} {f l : Option Nat} {pto : Nat} {ps : List Pkt} (h : c.persistent f l pto ps = .ok c') :
    c' = c ∨ (Stretch pto ps ∧ c' = { c with cur := { c.cur with cwnd := c.min, acked := 0, phase := .persistent } }) := by
  unfold Cc.persistent at h
  split at h
  · injection h with h; exact .inl h.symm
  · simp only at h
    split at h
    · cases h
    · injection h with h; exact .inl h.symm
    · rename_i hx
      injection h with h
      refine .inr ⟨?_, h.symm⟩
      rw [Nat.mul_comm pto 3] at hx
      exact persistLoop_stretch (fun p hp => (List.dropWhile_sublist _).subset hp) (fun t ht => by cases ht) hx

/-- What losing packets does. -/
theorem onLost_cases {c c' : Cc} {f l : Option Nat} {pto : Nat} {ps : List Pkt} (h : c.onLost f l pto ps = .ok c') :
    c'.firstLimited = c.firstLimited ∧ c'.mtu = c.mtu ∧
    (c'.cur = c.cur ∨
     (c'.cur.phase.transient = true ∧ 2 * c.mtu ≤ c'.cur.cwnd ∧ c'.cur.cwnd ≤ Nat.max c.cur.cwnd (2 * c.mtu) ∧
       (Stretch pto ps ∨ ∃ p ∈ ps, p.inFlight = true ∧ c.afterRecovery p = true))) := by
  unfold Cc.onLost at h
  split at h
  · cases h
  · rename_i c₁ h1
    obtain ⟨a1, a2, a3, _, _⟩ := lostAll_cur h1
    simp only at h
    split at h
    · injection h with h
      rw [← h]
      exact ⟨a2, a3, .inl a1⟩
    · rename_i last hl
      have hlast : last ∈ ps ∧ last.inFlight = true := by
        have hm := List.mem_of_getLast? hl
        obtain ⟨q1, q2⟩ := List.mem_filter.mp hm
        exact ⟨(List.mem_filter.mp q1).1, q2⟩
      have e1 := congestion_limited c₁ last false
      have e2 := congestion_mtu c₁ last false
      have hcw := congestion_cwnd c₁ last false
      have haf : c₁.afterRecovery last = c.afterRecovery last := by unfold Cc.afterRecovery; rw [a1]
      rw [a1, a3] at hcw
      rcases persistent_cases h with rfl | ⟨⟨a, ha, b, hb, hs1, hs2, hs3, hs4⟩, rfl⟩
      · refine ⟨e1.trans a2, e2.trans a3, ?_⟩
        rcases congestion_cases c₁ last false with ⟨q1, q2, q3⟩ | ⟨_, q⟩
        · refine .inr ⟨by rw [q2]; rfl, by rw [a3] at q3; exact q3, hcw, .inr ⟨last, hlast.1, hlast.2, by rw [← haf]; exact q1⟩⟩
        · rw [q]; exact .inl a1
      · refine ⟨e1.trans a2, e2.trans a3, .inr ⟨rfl, ?_, ?_, .inl ⟨a, (List.mem_filter.mp ha).1, b, (List.mem_filter.mp hb).1, hs1, hs2, hs3, fun n h1 h2 => ?_⟩⟩⟩
        · show 2 * c.mtu ≤ Cc.min _
          unfold Cc.min
          rw [e2, a3]; omega
        · show Cc.min _ ≤ _
          unfold Cc.min
          rw [e2, a3, Nat.mul_comm]
          exact Nat.le_max_right _ _
        · obtain ⟨p, hp, he⟩ := hs4 n h1 h2
          exact ⟨p, (List.mem_filter.mp hp).1, he⟩

/-- The loop over acknowledged packets. -/
theorem ackLoop_facts : ∀ (ps : List Pkt) (c : Cc) (l : Bool) (n : Nat),
    (c.ackLoop l n ps).1.cur.cwnd = c.cur.cwnd ∧ (c.ackLoop l n ps).1.cur.recStart = c.cur.recStart ∧ (c.ackLoop l n ps).1.cur.acked = c.cur.acked ∧
    (c.ackLoop l n ps).1.cur.ssthresh = c.cur.ssthresh ∧ (c.ackLoop l n ps).1.mtu = c.mtu ∧ (c.ackLoop l n ps).1.alg = c.alg ∧
    (c.ackLoop l n ps).1.firstLimited = c.firstLimited ∧ (c.cur.phase.transient = true → (c.ackLoop l n ps).1.cur.phase = c.cur.phase) ∧
    ((c.ackLoop l n ps).1.cur.phase = c.cur.phase ∨ (c.ackLoop l n ps).1.cur.phase = .congAvoid) ∧
    ((c.ackLoop l n ps).2.1 = false → l = false ∨ ∃ p ∈ ps, ∃ f, c.firstLimited = some f ∧ p.pn < f) ∧
    ((∀ p ∈ ps, c.afterRecovery p = false) → (c.ackLoop l n ps).2.2 = n) := by
  intro ps
  induction ps with
  | nil => intro c l n; exact ⟨rfl, rfl, rfl, rfl, rfl, rfl, rfl, fun _ => rfl, .inl rfl, fun h => .inl h, fun _ => rfl⟩
  | cons p ps ih =>
    intro c l n
    unfold Cc.ackLoop
    simp only
    have one : (c.ackOne l n p).1.cur.cwnd = c.cur.cwnd ∧ (c.ackOne l n p).1.cur.recStart = c.cur.recStart ∧ (c.ackOne l n p).1.cur.acked = c.cur.acked ∧
        (c.ackOne l n p).1.cur.ssthresh = c.cur.ssthresh ∧ (c.ackOne l n p).1.mtu = c.mtu ∧ (c.ackOne l n p).1.alg = c.alg ∧
        (c.ackOne l n p).1.firstLimited = c.firstLimited ∧ (c.cur.phase.transient = true → (c.ackOne l n p).1.cur.phase = c.cur.phase) ∧
        ((c.ackOne l n p).1.cur.phase = c.cur.phase ∨ (c.ackOne l n p).1.cur.phase = .congAvoid) ∧
        ((c.ackOne l n p).2.1 = false → l = false ∨ ∃ f, c.firstLimited = some f ∧ p.pn < f) ∧
        (c.afterRecovery p = false → (c.ackOne l n p).2.2 = n ∧ (c.ackOne l n p).1.cur = c.cur) := by
      unfold Cc.ackOne
      split
      · simp only
        have hlim : (l && !(c.firstLimited.any fun f => decide (p.pn < f))) = false → l = false ∨ ∃ f, c.firstLimited = some f ∧ p.pn < f := by
          cases l <;> cases hf : c.firstLimited <;> simp
        split
        · rename_i ha
          have ha : c.afterRecovery p = true := ha
          split
          · rename_i hrec
            refine ⟨rfl, rfl, rfl, rfl, rfl, rfl, rfl, fun ht => ?_, .inr rfl, hlim, fun hc => ?_⟩
            · exfalso
              unfold Cc.afterRecovery at ha
              rw [ht] at ha
              simp at ha
            · rw [ha] at hc; cases hc
          · refine ⟨rfl, rfl, rfl, rfl, rfl, rfl, rfl, fun _ => rfl, .inl rfl, hlim, fun hc => ?_⟩
            rw [ha] at hc; cases hc
        · exact ⟨rfl, rfl, rfl, rfl, rfl, rfl, rfl, fun _ => rfl, .inl rfl, hlim, fun _ => ⟨rfl, rfl⟩⟩
      · exact ⟨rfl, rfl, rfl, rfl, rfl, rfl, rfl, fun _ => rfl, .inl rfl, fun h => .inl h, fun _ => ⟨rfl, rfl⟩⟩
    obtain ⟨o1, o2, o3, o4, o5, o6, o7, o8, o9, o10, o11⟩ := one
    obtain ⟨i1, i2, i3, i4, i5, i6, i7, i8, i9, i10, i11⟩ := ih (c.ackOne l n p).1 (c.ackOne l n p).2.1 (c.ackOne l n p).2.2
    refine ⟨i1.trans o1, i2.trans o2, i3.trans o3, i4.trans o4, i5.trans o5, i6.trans o6, i7.trans o7, fun ht => ?_, ?_, fun hf => ?_, fun hall => ?_⟩
    · have := o8 ht
      exact (i8 (by rw [this]; exact ht)).trans this
    · rcases i9 with h | h
      · rcases o9 with h' | h'
        · exact .inl (h.trans h')
        · exact .inr (h.trans h')
      · exact .inr h
    · rcases i10 hf with h | ⟨q, hq, f, h1, h2⟩
      · rcases o10 h with h | ⟨f, h1, h2⟩
        · exact .inl h
        · exact .inr ⟨p, List.mem_cons_self, f, h1, h2⟩
      · rw [o7] at h1
        exact .inr ⟨q, List.mem_cons_of_mem _ hq, f, h1, h2⟩
    · obtain ⟨k1, k2⟩ := o11 (hall p List.mem_cons_self)
      rw [i11 (fun q hq => by unfold Cc.afterRecovery; rw [k2]; exact hall q (List.mem_cons_of_mem _ hq)), k1]

theorem detectSpurious_cases (c : Cc) (acked : List Pkt) (now pto : Nat) :
    ((c.cleanup now pto).detectSpurious acked).firstLimited = c.firstLimited ∧ ((c.cleanup now pto).detectSpurious acked).mtu = c.mtu ∧
    ((c.cleanup now pto).detectSpurious acked).alg = c.alg ∧
    (((c.cleanup now pto).detectSpurious acked).cur = c.cur ∨ LateAll c acked now pto) := by
  unfold Cc.detectSpurious
  split
  · exact ⟨rfl, rfl, rfl, .inl rfl⟩
  · rename_i hne
    simp only
    split
    · rename_i hr
      have hl : LateAll c acked now pto := by
        unfold LateAll
        simp only
        have e : (c.cleanup now pto).maybeLost = c.maybeLost.filter fun e => decide (now ≤ e.2.2 + 2 * pto) := by
          unfold Cc.cleanup
          simp only
          congr 1
          funext e
          congr 1
          exact propext ⟨fun h => by omega, fun h => by omega⟩
        rw [← e]
        refine ⟨hne, fun x hx => ?_⟩
        have := List.filter_eq_nil_iff.mp hr x hx
        simp only [Bool.not_eq_true', Bool.not_eq_false', List.any_eq_true, decide_eq_true_eq] at this
        have this := Bool.not_eq_false _ ▸ this
        simpa using this
      unfold Cc.onSpurious
      split
      · exact ⟨rfl, rfl, rfl, .inl rfl⟩
      · split
        · exact ⟨rfl, rfl, rfl, .inl rfl⟩
        · exact ⟨rfl, rfl, rfl, .inr hl⟩
    · exact ⟨rfl, rfl, rfl, .inl rfl⟩

theorem growSlow_facts (c : Cc) (ss : SsIn) (n : Nat) (hl : ss.leave = true → c.cur.phase ≠ .persistent)
    (hrs : c.cur.phase = .recoveryStart → ∃ s, c.cur.ssthresh = some s ∧ s ≤ c.cur.cwnd) :
    (c.growSlow ss n).firstLimited = c.firstLimited ∧ (c.growSlow ss n).mtu = c.mtu ∧ (c.growSlow ss n).alg = c.alg ∧
    (c.growSlow ss n).cur.recStart = c.cur.recStart ∧ c.cur.cwnd ≤ (c.growSlow ss n).cur.cwnd ∧ (c.growSlow ss n).cur.cwnd ≤ c.cur.cwnd + n ∧
    (c.cur.phase.transient = true → n = 0 → (c.growSlow ss n).cur.phase = c.cur.phase) ∧
    (c.cur.phase = .recoveryStart → (c.growSlow ss n) = c) ∧ ((c.growSlow ss n).cur.phase = c.cur.phase ∨ (c.growSlow ss n).cur.phase = .congAvoid) := by
  have hinc : ss.increase c.mtu n ≤ n := by
    unfold SsIn.increase
    cases ss.cap with
    | none =>
      simp only
      split
      · exact Nat.div_le_self _ _
      · exact Nat.le_refl _
    | some l =>
      simp only
      split
      · exact Nat.le_trans (Nat.div_le_self _ _) (Nat.min_le_right _ _)
      · exact Nat.min_le_right _ _
  have hrs' : c.cur.phase = .recoveryStart → ¬ (c.cur.ssthresh.all fun s => decide (c.cur.cwnd < s)) = true := by
    intro hp
    obtain ⟨s, h1, h2⟩ := hrs hp
    rw [h1]
    simp only [Option.all_some, decide_eq_true_eq]
    omega
  unfold Cc.growSlow
  by_cases hc : (c.cur.ssthresh.all fun s => decide (c.cur.cwnd < s)) = true
  · rw [if_pos hc]
    have hno : c.cur.phase ≠ .recoveryStart := fun hp => hrs' hp hc
    have htr : c.cur.phase.transient = true → c.cur.phase = .persistent := by
      intro ht
      cases hp : c.cur.phase <;> rw [hp] at ht hno <;> first | rfl | (cases ht; done) | exact absurd rfl hno
    split
    · rename_i hlv
      refine ⟨rfl, rfl, rfl, rfl, Nat.le_refl _, Nat.le_add_right _ _, fun ht _ => ?_, (fun hp => absurd hp hno), .inr rfl⟩
      exact absurd (htr ht) (hl hlv)
    · simp only
      cases hs : c.cur.ssthresh with
      | none => exact ⟨rfl, rfl, rfl, rfl, Nat.le_add_right _ _, Nat.add_le_add_left hinc _, fun _ _ => rfl, (fun hp => absurd hp hno), .inl rfl⟩
      | some s =>
        rw [hs] at hc
        simp only [Option.all_some, decide_eq_true_eq] at hc
        simp only
        split
        · refine ⟨rfl, rfl, rfl, rfl, ?_, ?_, fun _ hn => ?_, (fun hp => absurd hp hno), .inr rfl⟩
          · exact Nat.le_of_lt hc
          · show s ≤ _
            omega
          · exfalso
            subst hn
            omega
        · exact ⟨rfl, rfl, rfl, rfl, Nat.le_add_right _ _, Nat.add_le_add_left hinc _, fun _ _ => rfl, (fun hp => absurd hp hno), .inl rfl⟩
  · rw [if_neg hc]
    exact ⟨rfl, rfl, rfl, rfl, Nat.le_refl _, Nat.le_add_right _ _, fun _ _ => rfl, fun _ => rfl, .inl rfl⟩

theorem growAvoid_facts {c c' : Cc} {bfi n : Nat} (h : c.growAvoid bfi n = .ok c') :
    c'.firstLimited = c.firstLimited ∧ c'.mtu = c.mtu ∧ c'.alg = c.alg ∧ c'.cur.recStart = c.cur.recStart ∧ c'.cur.phase = c.cur.phase ∧
    c.cur.cwnd ≤ c'.cur.cwnd ∧ (n = 0 → c'.cur.cwnd ≤ c.cur.cwnd + c.mtu) ∧ c'.cur.ssthresh = c.cur.ssthresh := by
  unfold Cc.growAvoid at h
  split at h
  · simp only at h
    split at h
    · cases h
    · rename_i hb
      injection h with h
      rw [← h]
      refine ⟨rfl, rfl, rfl, rfl, rfl, Nat.le_add_right _ _, fun hn => ?_, rfl⟩
      subst hn
      show c.cur.cwnd + (Nat.min c.cur.acked (c.bytesFor bfi) + 0) / c.bytesFor bfi * c.mtu ≤ _
      have : (Nat.min c.cur.acked (c.bytesFor bfi) + 0) / c.bytesFor bfi ≤ 1 := by
        rw [Nat.add_zero]
        exact Nat.div_le_of_le_mul (by rw [Nat.mul_one]; exact Nat.min_le_right _ _)
      have := Nat.mul_le_mul_right c.mtu this
      omega
  · injection h with h
    rw [← h]
    exact ⟨rfl, rfl, rfl, rfl, rfl, Nat.le_refl _, fun _ => Nat.le_add_right _ _, rfl⟩

/-- What holds of every history. -/
structure CcInv (m : Nat) (h : CcHist) : Prop where
  ok : CcOK m h.c
  cutNext : h.cut ≤ h.next
  /-- Packets sent before the last reduction do not count as sent after recovery started. -/
  cut : h.cut = 0 ∨ h.c.cur.phase.transient = true ∨ ∃ r, h.c.cur.recStart = some r ∧ h.cut ≤ r
  full : ∀ f, h.c.firstLimited = some f → ∃ n ∈ h.full, f = n + 1
  /-- Entering recovery the window is at the threshold. -/
  start : h.c.cur.phase = .recoveryStart → ∃ s, h.c.cur.ssthresh = some s ∧ s ≤ h.c.cur.cwnd
  storedStart : ∀ st, h.c.stored = some st → st.phase.transient = false

theorem CcInv.not_after (hi : CcInv m h) {p : Pkt} (hp : p.pn < h.cut) : h.c.afterRecovery p = false := by
  unfold Cc.afterRecovery
  rcases hi.cut with h0 | ht | ⟨r, hr, hle⟩
  · omega
  · rw [ht]; rfl
  · rw [hr]
    have : ¬ p.pn ≥ r := by omega
    simp [this]

/-- What acknowledgements do, apart from undoing a reduction, which gives `c₀`. -/
theorem onAcked_facts {c c' : Cc} {ps : List Pkt} {now pto : Nat} {ss : SsIn} {bfi : Nat} (h : c.onAcked ps now pto ss bfi = .ok c')
    (hl : ss.leave = true → ((c.cleanup now pto).detectSpurious ps).cur.phase ≠ .persistent)
    (hrs : ((c.cleanup now pto).detectSpurious ps).cur.phase = .recoveryStart →
      ∃ s, ((c.cleanup now pto).detectSpurious ps).cur.ssthresh = some s ∧ s ≤ ((c.cleanup now pto).detectSpurious ps).cur.cwnd) :
    let c₀ := (c.cleanup now pto).detectSpurious ps
    c'.firstLimited = c.firstLimited ∧ c'.mtu = c.mtu ∧ c'.cur.recStart = c₀.cur.recStart ∧ c₀.cur.cwnd ≤ c'.cur.cwnd ∧
    (c₀.cur.phase.transient = true → c'.cur.phase = c₀.cur.phase) ∧
    (c'.cur.phase = c₀.cur.phase ∨ c'.cur.phase = .congAvoid) ∧
    (c'.cur.phase = .recoveryStart → c'.cur.ssthresh = c₀.cur.ssthresh) ∧
    (c₀.cur.cwnd < c'.cur.cwnd → ∃ p ∈ ps, ∃ f, c.firstLimited = some f ∧ p.pn < f) ∧
    ((∀ p ∈ ps, c₀.afterRecovery p = false) → c'.cur.cwnd ≤ c₀.cur.cwnd + c.mtu) := by
  obtain ⟨d1, d2, d3, _⟩ := detectSpurious_cases c ps now pto
  unfold Cc.onAcked at h
  simp only at h ⊢
  generalize hgen : (c.cleanup now pto).detectSpurious ps = c₀ at *
  obtain ⟨a1, a2, a3, a4, a5, a6, a7, a8, a9, a10, a11⟩ := ackLoop_facts ps c₀ true 0
  have hnew : c₀.cur.phase.transient = true → (c₀.ackLoop true 0 ps).2.2 = 0 := by
    intro ht
    exact a11 (fun p _ => by unfold Cc.afterRecovery; rw [ht]; rfl)
  split at h
  · injection h with h
    rw [← h]
    exact ⟨a7.trans d1, a5.trans d2, a2, Nat.le_of_eq a1.symm, a8, a9, fun _ => a4, fun hc => by omega, fun _ => by omega⟩
  · rename_i hlim
    have hlim : (c₀.ackLoop true 0 ps).2.1 = false := by simpa using hlim
    have hph : (c₀.ackLoop true 0 ps).1.cur.phase = .persistent → c₀.cur.phase = .persistent := by
      intro hp
      rcases a9 with h9 | h9
      · rw [← h9]; exact hp
      · rw [hp] at h9; cases h9
    have hst : (c₀.ackLoop true 0 ps).1.cur.phase = .recoveryStart → c₀.cur.phase = .recoveryStart := by
      intro hp
      rcases a9 with h9 | h9
      · rw [← h9]; exact hp
      · rw [hp] at h9; cases h9
    obtain ⟨s1, s2, s3, s4, s5, s6, s7, s8, s9⟩ := growSlow_facts (c₀.ackLoop true 0 ps).1 ss (c₀.ackLoop true 0 ps).2.2 (fun hlv hp => hl hlv (hph hp))
      (fun hp => by rw [a4, a1]; exact hrs (hst hp))
    obtain ⟨g1, g2, g3, g4, g5, g6, g7, g8⟩ := growAvoid_facts h
    have hphase : c'.cur.phase = c₀.cur.phase ∨ c'.cur.phase = .congAvoid := by
      rw [g5]
      rcases s9 with h9 | h9
      · rw [h9]; exact a9
      · exact .inr h9
    refine ⟨g1.trans (s1.trans (a7.trans d1)), g2.trans (s2.trans (a5.trans d2)), g4.trans (s4.trans a2), ?_, fun ht => ?_, hphase, fun hp => ?_, fun _ => ?_, fun hall => ?_⟩
    · omega
    · have h8 := a8 ht
      rw [g5, s7 (by rw [h8]; exact ht) (hnew ht), h8]
    · have hp' : (Cc.growSlow (c₀.ackLoop true 0 ps).1 ss (c₀.ackLoop true 0 ps).2.2).cur.phase = .recoveryStart := by rw [← g5]; exact hp
      rcases s9 with h9 | h9
      · have := s8 (by rw [← h9]; exact hp')
        rw [g8, this]
        exact a4
      · rw [hp'] at h9; cases h9
    · rcases a10 hlim with h0 | ⟨p, hp, f, h1, h2⟩
      · cases h0
      · exact ⟨p, hp, f, d1 ▸ h1, h2⟩
    · have hn := a11 hall
      have := g7 hn
      rw [s2, a5] at this
      have : c₀.mtu = c.mtu := d2
      omega

theorem CcInv.new {alg mtu sp} (hm : 0 < m) (hmtu : m ≤ mtu) : CcInv m (.new alg mtu sp) :=
  ⟨CcOK.new hm hmtu, Nat.le_refl _, .inl rfl, (fun f hf => by cases hf), (fun hc => by cases hc), (fun st hs => by cases hs)⟩

theorem exitTransient_facts (st : CcSt) (pn : Nat) :
    (st.exitTransient pn).cwnd = st.cwnd ∧ (st.exitTransient pn).phase.transient = false ∧
    (st.phase.transient = true → (st.exitTransient pn).recStart = some pn) ∧ (st.phase.transient = false → (st.exitTransient pn).recStart = st.recStart) := by
  unfold CcSt.exitTransient
  cases hp : st.phase <;> simp [Phase.transient, Phase.update, hp]

def CcEv.next (h : CcHist) : CcEv → Nat
  | .sent p => p.pn + 1
  | _ => h.next

def CcEv.full (h : CcHist) : CcEv → List Nat
  | .sent p => if p.inFlight ∧ Full h.c then p.pn :: h.full else h.full
  | _ => h.full

theorem CcHist.step_ok (h1 : h.step e = .ok h') : h.c.step e = .ok h'.c ∧ h'.next = e.next h ∧ h'.full = e.full h := by
  unfold CcHist.step at h1
  split at h1
  · cases h1
  · rename_i c hc
    cases e <;> (simp only at h1; injection h1 with h1; rw [← h1]; exact ⟨hc, rfl, rfl⟩)

theorem detectSpurious_start (hi : CcInv m h) (ps : List Pkt) (now pto : Nat) :
    ((h.c.cleanup now pto).detectSpurious ps).stored = none ∨ ((h.c.cleanup now pto).detectSpurious ps).stored = h.c.stored := by
  unfold Cc.detectSpurious
  split
  · exact .inr rfl
  · simp only
    split
    · unfold Cc.onSpurious
      split
      · exact .inr rfl
      · split <;> exact .inl rfl
    · exact .inr rfl

theorem detectSpurious_phase (hi : CcInv m h) (ps : List Pkt) (now pto : Nat) :
    ((h.c.cleanup now pto).detectSpurious ps).cur = h.c.cur ∨ ((h.c.cleanup now pto).detectSpurious ps).cur.phase.transient = false := by
  unfold Cc.detectSpurious
  split
  · exact .inl rfl
  · simp only
    split
    · unfold Cc.onSpurious
      split
      · exact .inl rfl
      · rename_i st hs
        split
        · exact .inl rfl
        · exact .inr (hi.storedStart st hs)
    · exact .inl rfl

theorem onAcked_stored {c c' : Cc} {ps : List Pkt} {now pto : Nat} {ss : SsIn} {bfi : Nat} (h : c.onAcked ps now pto ss bfi = .ok c') :
    c'.stored = ((c.cleanup now pto).detectSpurious ps).stored := by
  have loop : ∀ (ps : List Pkt) (c : Cc) (l : Bool) (n : Nat), (c.ackLoop l n ps).1.stored = c.stored := by
    intro ps
    induction ps with
    | nil => intro c l n; rfl
    | cons p ps ih =>
      intro c l n
      unfold Cc.ackLoop
      simp only
      rw [ih]
      unfold Cc.ackOne
      split
      · simp only
        split
        · split <;> rfl
        · rfl
      · rfl
  have slow : ∀ (c : Cc) (ss : SsIn) (n : Nat), (c.growSlow ss n).stored = c.stored := by
    intro c ss n
    unfold Cc.growSlow
    split
    · split
      · rfl
      · simp only
        split
        · rfl
        · split <;> rfl
    · rfl
  unfold Cc.onAcked at h
  simp only at h
  split at h
  · injection h with h
    rw [← h, loop]
  · unfold Cc.growAvoid at h
    split at h
    · simp only at h
      split at h
      · cases h
      · injection h with h
        rw [← h]
        show (Cc.growSlow _ _ _).stored = _
        rw [slow, loop]
    · injection h with h
      rw [← h, slow, loop]

theorem afterRecovery_transient {c : Cc} {p : Pkt} (h : c.afterRecovery p = true) : c.cur.phase.transient = false := by
  unfold Cc.afterRecovery at h
  cases ht : c.cur.phase.transient
  · rfl
  · rw [ht] at h; cases h

theorem congestion_inv {c : Cc} {p : Pkt} {ecn : Bool} (hst : ∀ st, c.stored = some st → st.phase.transient = false)
    (hs : c.cur.phase = .recoveryStart → ∃ s, c.cur.ssthresh = some s ∧ s ≤ c.cur.cwnd) :
    (∀ st, (c.congestion p ecn).1.stored = some st → st.phase.transient = false) ∧
    ((c.congestion p ecn).1.cur.phase = .recoveryStart → ∃ s, (c.congestion p ecn).1.cur.ssthresh = some s ∧ s ≤ (c.congestion p ecn).1.cur.cwnd) := by
  unfold Cc.congestion
  split
  · rename_i ha
    refine ⟨fun st h => ?_, fun _ => ⟨_, rfl, Nat.le_refl _⟩⟩
    simp only at h
    split at h
    · exact hst st h
    · injection h with h
      rw [← h]
      exact afterRecovery_transient ha
  · exact ⟨hst, hs⟩

theorem onLost_inv {c c' : Cc} {f l : Option Nat} {pto : Nat} {ps : List Pkt} (h : c.onLost f l pto ps = .ok c')
    (hst : ∀ st, c.stored = some st → st.phase.transient = false)
    (hs : c.cur.phase = .recoveryStart → ∃ s, c.cur.ssthresh = some s ∧ s ≤ c.cur.cwnd) :
    (∀ st, c'.stored = some st → st.phase.transient = false) ∧ (c'.cur.phase = .recoveryStart → ∃ s, c'.cur.ssthresh = some s ∧ s ≤ c'.cur.cwnd) := by
  unfold Cc.onLost at h
  split at h
  · cases h
  · rename_i c₁ h1
    obtain ⟨a1, a2, a3, a4, _⟩ := lostAll_cur h1
    have hst₁ : ∀ st, c₁.stored = some st → st.phase.transient = false := by rw [a4]; exact hst
    have hs₁ : c₁.cur.phase = .recoveryStart → ∃ s, c₁.cur.ssthresh = some s ∧ s ≤ c₁.cur.cwnd := by rw [a1]; exact hs
    simp only at h
    split at h
    · injection h with h
      rw [← h]
      exact ⟨hst₁, hs₁⟩
    · rename_i last hl
      obtain ⟨b1, b2⟩ := congestion_inv (p := last) (ecn := false) hst₁ hs₁
      rcases persistent_cases h with rfl | ⟨_, rfl⟩
      · exact ⟨b1, b2⟩
      · exact ⟨b1, (fun hc => by cases hc)⟩

theorem onLost_okm {c c' : Cc} (hc : CcOK m c) {f l : Option Nat} {pto : Nat} {ps : List Pkt} (h : c.onLost f l pto ps = .ok c') : CcOK m c' := by
  unfold Cc.onLost at h
  split at h
  · cases h
  · rename_i c₁ h1
    obtain ⟨a1, a2, a3, a4, _⟩ := lostAll_cur h1
    have h₁ : CcOK m c₁ := ⟨hc.pos, by rw [a3]; exact hc.mtu, by rw [a1]; exact hc.cur, by rw [a4]; exact hc.stored⟩
    simp only at h
    split at h
    · injection h with h
      rw [← h]
      exact h₁
    · rename_i last hl
      have h2 : CcOK m (c₁.congestion last false).1 := h₁.congestion
      rcases persistent_cases h with rfl | ⟨_, rfl⟩
      · exact h2
      · refine ⟨h2.pos, h2.mtu, ⟨?_, h2.cur.ssthresh⟩, h2.stored⟩
        show 2 * m ≤ Cc.min _
        unfold Cc.min
        have := h2.mtu
        omega

theorem CcInv.step (hi : CcInv m h) (hl : CcLegal m h e) (hs : h.step e = .ok h') : CcInv m h' := by
  obtain ⟨h1, h2, h3⟩ := CcHist.step_ok hs
  cases e with
  | sent p =>
    injection h1 with h1
    simp only [CcEv.next, CcEv.full] at h2 h3
    have hcut : h'.cut = h.cut := by
      unfold CcHist.step at hs
      injection hs with hs
      rw [← hs]
    obtain ⟨_, _, o3, o4, o5, _⟩ := h.c.onSent_eq p
    obtain ⟨x1, x2, x3, x4⟩ := exitTransient_facts h.c.cur p.pn
    have hl : h.next ≤ p.pn := hl
    have hc := hi.cutNext
    refine ⟨by rw [← h1]; exact hi.ok.onSent, by omega, ?_, fun f hf => ?_, fun hp => ?_, fun st hst => ?_⟩
    · rw [hcut, ← h1, o4]
      rcases hi.cut with h0 | ht | ⟨r, hr, hle⟩
      · exact .inl h0
      · exact .inr (.inr ⟨p.pn, x3 ht, by omega⟩)
      · cases ht : h.c.cur.phase.transient with
        | true => exact .inr (.inr ⟨p.pn, x3 ht, by omega⟩)
        | false => exact .inr (.inr ⟨r, (x4 ht).trans hr, hle⟩)
    · rw [← h1, onSent_limited] at hf
      rw [h3]
      split at hf
      · rename_i hc
        rw [if_pos hc]
        injection hf with hf
        exact ⟨p.pn, List.mem_cons_self, hf.symm⟩
      · rename_i hc
        rw [if_neg hc]
        exact hi.full f hf
    · rw [← h1, o4] at hp
      rw [hp] at x2
      cases x2
    · rw [← h1, o5] at hst
      exact hi.storedStart st hst
  | acked ps now pto ss bfi =>
    simp only [CcEv.next, CcEv.full] at h2 h3
    have hcut : h'.cut = if LateAll h.c ps now pto then 0 else h.cut := by
      unfold CcHist.step at hs
      have h1' : h.c.step (.acked ps now pto ss bfi) = .ok h'.c := h1
      rw [h1'] at hs
      injection hs with hs
      rw [← hs]
    have h1 : h.c.onAcked ps now pto ss bfi = .ok h'.c := h1
    obtain ⟨d1, d2, d3, d4⟩ := detectSpurious_cases h.c ps now pto
    have hph := detectSpurious_phase hi ps now pto
    have hstd := detectSpurious_start hi ps now pto
    obtain ⟨f1, f2, f3, f4, f5, f6, f7, f8, f9⟩ := onAcked_facts h1 (fun hlv hp => by
        rcases hph with h0 | h0
        · rw [h0] at hp; exact hl.2.2 hlv hp
        · rw [hp] at h0; cases h0)
      (fun hp => by
        rcases hph with h0 | h0
        · rw [h0] at hp ⊢; exact hi.start hp
        · rw [hp] at h0; cases h0)
    obtain ⟨c', k1, k2, _⟩ := Cc.onAcked_ok hi.ok ps now pto ss hl.2.1
    rw [h1] at k1
    injection k1 with k1
    refine ⟨by rw [k1]; exact k2, ?_, ?_, fun f hf => ?_, fun hp => ?_, fun st hst => ?_⟩
    · rw [hcut, h2]
      split
      · exact Nat.zero_le _
      · exact hi.cutNext
    · rw [hcut]
      split
      · exact .inl rfl
      · rename_i hlate
        have hcur : ((h.c.cleanup now pto).detectSpurious ps).cur = h.c.cur := d4.resolve_right hlate
        rw [hcur] at f3 f5
        rcases hi.cut with h0 | ht | ⟨r, hr, hle⟩
        · exact .inl h0
        · exact .inr (.inl (by rw [f5 ht]; exact ht))
        · exact .inr (.inr ⟨r, f3.trans hr, hle⟩)
    · rw [f1] at hf
      rw [h3]
      exact hi.full f hf
    · have hp₀ : ((h.c.cleanup now pto).detectSpurious ps).cur.phase = .recoveryStart := by
        rcases f6 with h6 | h6
        · rw [← h6]; exact hp
        · rw [hp] at h6; cases h6
      have hcur : ((h.c.cleanup now pto).detectSpurious ps).cur = h.c.cur := by
        rcases hph with h0 | h0
        · exact h0
        · rw [hp₀] at h0; cases h0
      rw [f7 hp]
      rw [hcur] at hp₀ f4 ⊢
      obtain ⟨s, g1, g2⟩ := hi.start hp₀
      exact ⟨s, g1, Nat.le_trans g2 f4⟩
    · rw [onAcked_stored h1] at hst
      rcases hstd with h0 | h0
      · rw [h0] at hst; cases hst
      · rw [h0] at hst; exact hi.storedStart st hst
  | ce p =>
    injection h1 with h1
    simp only [CcEv.next, CcEv.full] at h2 h3
    have hcut : h'.cut = if h'.c.cur.cwnd < h.c.cur.cwnd then h.next else h.cut := by
      unfold CcHist.step at hs
      injection hs with hs
      rw [← hs]
    obtain ⟨b1, b2⟩ := congestion_inv (p := p) (ecn := true) hi.storedStart hi.start
    refine ⟨by rw [← h1]; exact hi.ok.congestion, ?_, ?_, fun f hf => ?_, by rw [← h1]; exact b2, by rw [← h1]; exact b1⟩
    · rw [hcut, h2]
      split
      · exact Nat.le_refl _
      · exact hi.cutNext
    · rcases congestion_cases h.c p true with ⟨_, q2, _⟩ | ⟨_, q⟩
      · refine .inr (.inl ?_)
        rw [← h1]
        show (h.c.congestion p true).1.cur.phase.transient = true
        rw [q2]; rfl
      · have e : h'.c = h.c := by rw [← h1]; exact q
        rw [hcut, e, if_neg (Nat.lt_irrefl _)]
        exact hi.cut
    · rw [← h1] at hf
      rw [h3]
      exact hi.full f ((congestion_limited h.c p true).symm.trans hf)
  | lost f l pto ps =>
    simp only [CcEv.next, CcEv.full] at h2 h3
    have hcut : h'.cut = if h'.c.cur.cwnd < h.c.cur.cwnd then h.next else h.cut := by
      unfold CcHist.step at hs
      have h1' : h.c.step (.lost f l pto ps) = .ok h'.c := h1
      rw [h1'] at hs
      injection hs with hs
      rw [← hs]
    have h1 : h.c.onLost f l pto ps = .ok h'.c := h1
    obtain ⟨c1, c2, c3⟩ := onLost_cases h1
    obtain ⟨b1, b2⟩ := onLost_inv h1 hi.storedStart hi.start
    refine ⟨onLost_okm hi.ok h1, ?_, ?_, fun f hf => ?_, b2, b1⟩
    · rw [hcut, h2]
      split
      · exact Nat.le_refl _
      · exact hi.cutNext
    · rcases c3 with c3 | ⟨c3, _⟩
      · rw [hcut, c3, if_neg (Nat.lt_irrefl _)]
        exact hi.cut
      · exact .inr (.inl c3)
    · rw [h3]
      exact hi.full f (c1.symm.trans hf)
  | discard p =>
    simp only [CcEv.next, CcEv.full] at h2 h3
    have hcut : h'.cut = h.cut := by
      unfold CcHist.step at hs
      rw [h1] at hs
      injection hs with hs
      rw [← hs]
    have h1 : h.c.discard p = .ok h'.c := h1
    have e : h'.c.cur = h.c.cur ∧ h'.c.firstLimited = h.c.firstLimited ∧ h'.c.mtu = h.c.mtu ∧ h'.c.stored = h.c.stored := by
      unfold Cc.discard at h1
      split at h1
      · split at h1
        · injection h1 with h1; rw [← h1]; exact ⟨rfl, rfl, rfl, rfl⟩
        · cases h1
      · injection h1 with h1; rw [← h1]; exact ⟨rfl, rfl, rfl, rfl⟩
    obtain ⟨e1, e2, e3, e4⟩ := e
    exact ⟨⟨hi.ok.pos, by rw [e3]; exact hi.ok.mtu, by rw [e1]; exact hi.ok.cur, by rw [e4]; exact hi.ok.stored⟩, by rw [hcut, h2]; exact hi.cutNext,
      by rw [hcut, e1]; exact hi.cut, by rw [e2, h3]; exact hi.full, by rw [e1]; exact hi.start, by rw [e4]; exact hi.storedStart⟩
  | clear =>
    injection hs with hs
    rw [← hs]
    exact ⟨⟨hi.ok.pos, hi.ok.mtu, hi.ok.cur, hi.ok.stored⟩, hi.cutNext, hi.cut, hi.full, hi.start, hi.storedStart⟩
  | mtu n =>
    injection hs with hs
    rw [← hs]
    exact ⟨⟨hi.ok.pos, hl, hi.ok.cur, hi.ok.stored⟩, hi.cutNext, hi.cut, hi.full, hi.start, hi.storedStart⟩

theorem CcReached.inv (hr : CcReached m h) : CcInv m h := by
  induction hr with
  | new hm hmtu => exact .new hm hmtu
  | step _ hl hs ih => exact ih.step hl hs

/-! The other direction: packets sent after the last report of congestion count as sent after recovery started. -/

def CcEv.sent' (h : CcHist) : CcEv → List Nat
  | .sent p => p.pn :: h.sent
  | _ => h.sent

def CcEv.reported (h : CcHist) : CcEv → Nat
  | .ce _ => h.next
  | .lost _ _ _ ps => if ps = [] then h.reported else h.next
  | _ => h.reported

theorem CcHist.step_rep (h1 : h.step e = .ok h') : h'.sent = e.sent' h ∧ h'.reported = e.reported h := by
  unfold CcHist.step at h1
  split at h1
  · cases h1
  · rename_i c hc
    cases e <;> (simp only at h1; injection h1 with h1; rw [← h1]; exact ⟨rfl, rfl⟩)

/-- Every packet sent after the last report was sent after recovery started. -/
structure StRep (h : CcHist) (st : CcSt) : Prop where
  recNext : ∀ r, st.recStart = some r → r < h.next
  rep : ∀ n ∈ h.sent, h.reported ≤ n → ∀ r, st.recStart = some r → r ≤ n

structure CcRep (h : CcHist) : Prop where
  sentNext : ∀ n ∈ h.sent, n < h.next
  cur : StRep h h.c.cur
  stored : ∀ st, h.c.stored = some st → StRep h st
  phase : ∀ n ∈ h.sent, h.reported ≤ n → h.c.cur.phase.transient = false

theorem StRep.reported {st : CcSt} (hr : ∀ r, st.recStart = some r → r < h.next) (hn : h'.next = h.next)
    (hs : ∀ n ∈ h'.sent, n < h'.next) (hp : h'.reported = h.next) : StRep h' st :=
  ⟨by rw [hn]; exact hr, fun n hn' hle r _ => by have := hs n hn'; omega⟩

theorem StRep.same {st : CcSt} (hr : StRep h st) (hn : h'.next = h.next) (hs : h'.sent = h.sent) (hp : h'.reported = h.reported) : StRep h' st :=
  ⟨by rw [hn]; exact hr.recNext, by rw [hs, hp]; exact hr.rep⟩

theorem congestion_rec (c : Cc) (p : Pkt) (ecn : Bool) : (c.congestion p ecn).1.cur.recStart = c.cur.recStart ∧
    ((c.congestion p ecn).1.stored = c.stored ∨ (c.congestion p ecn).1.stored = some c.cur) := by
  unfold Cc.congestion
  split
  · refine ⟨rfl, ?_⟩
    cases ecn
    · exact .inr rfl
    · exact .inl rfl
  · exact ⟨rfl, .inl rfl⟩

theorem onLost_rec {c c' : Cc} {f l : Option Nat} {pto : Nat} {ps : List Pkt} (h : c.onLost f l pto ps = .ok c') :
    c'.cur.recStart = c.cur.recStart ∧ (c'.stored = c.stored ∨ c'.stored = some c.cur) ∧ (ps = [] → c' = c) := by
  unfold Cc.onLost at h
  split at h
  · cases h
  · rename_i c₁ h1
    obtain ⟨a1, a2, a3, a4, _⟩ := lostAll_cur h1
    simp only at h
    split at h
    · injection h with h
      rw [← h]
      refine ⟨by rw [a1], .inl a4, fun hn => ?_⟩
      subst hn
      unfold Cc.lostAll at h1
      injection h1 with h1
      exact h1.symm
    · rename_i last hl
      obtain ⟨b1, b2⟩ := congestion_rec c₁ last false
      rw [a1] at b1 b2
      rw [a4] at b2
      refine ⟨?_, ?_, fun hn => ?_⟩
      · rcases persistent_cases h with rfl | ⟨_, rfl⟩ <;> exact b1
      · rcases persistent_cases h with rfl | ⟨_, rfl⟩ <;> exact b2
      · subst hn; cases hl

theorem CcRep.new {alg mtu sp} : CcRep (.new alg mtu sp) :=
  ⟨(fun n hn => by cases hn), ⟨(fun r hr => by cases hr), (fun n hn => by cases hn)⟩, (fun st hs => by cases hs), (fun n hn => by cases hn)⟩

theorem detectSpurious_rep (hi : CcRep h) (ps : List Pkt) (now pto : Nat) : StRep h ((h.c.cleanup now pto).detectSpurious ps).cur := by
  unfold Cc.detectSpurious
  split
  · exact hi.cur
  · simp only
    split
    · unfold Cc.onSpurious
      split
      · exact hi.cur
      · rename_i st hs
        split
        · exact hi.cur
        · exact hi.stored st hs
    · exact hi.cur

theorem CcRep.step (hv : CcInv m h) (hi : CcRep h) (hl : CcLegal m h e) (hs : h.step e = .ok h') : CcRep h' := by
  obtain ⟨h1, h2, _⟩ := CcHist.step_ok hs
  obtain ⟨h3, h4⟩ := CcHist.step_rep hs
  cases e with
  | sent p =>
    injection h1 with h1
    simp only [CcEv.next, CcEv.sent', CcEv.reported] at h2 h3 h4
    have hl : h.next ≤ p.pn := hl
    obtain ⟨_, _, o3, o4, o5, _⟩ := h.c.onSent_eq p
    obtain ⟨x1, x2, x3, x4⟩ := exitTransient_facts h.c.cur p.pn
    have key : ∀ st, StRep h st → StRep h' st := by
      intro st hst
      refine ⟨fun r hr => ?_, fun n hn hle r hr => ?_⟩
      · have := hst.recNext r hr
        omega
      · rw [h3] at hn
        rw [h4] at hle
        rcases List.mem_cons.mp hn with rfl | hn
        · have := hst.recNext r hr
          omega
        · exact hst.rep n hn hle r hr
    refine ⟨fun n hn => ?_, ?_, fun st hst => ?_, fun n _ _ => ?_⟩
    · rw [h3] at hn
      rw [h2]
      rcases List.mem_cons.mp hn with rfl | hn
      · exact Nat.lt_succ_self _
      · have := hi.sentNext n hn
        omega
    · rw [← h1, o4]
      cases ht : h.c.cur.phase.transient with
      | false =>
        have := key _ hi.cur
        exact ⟨by rw [x4 ht]; exact this.recNext, by rw [x4 ht]; exact this.rep⟩
      | true =>
        refine ⟨fun r hr => ?_, fun n hn hle r hr => ?_⟩
        · rw [x3 ht] at hr
          injection hr with hr
          omega
        · rw [x3 ht] at hr
          injection hr with hr
          rw [h3] at hn
          rcases List.mem_cons.mp hn with rfl | hn
          · omega
          · have := hi.phase n hn (by rw [← h4]; exact hle)
            rw [ht] at this
            cases this
    · rw [← h1, o5] at hst
      exact key _ (hi.stored st hst)
    · rw [← h1, o4]
      exact x2
  | acked ps now pto ss bfi =>
    simp only [CcEv.next, CcEv.sent', CcEv.reported] at h2 h3 h4
    have h1 : h.c.onAcked ps now pto ss bfi = .ok h'.c := h1
    have hph := detectSpurious_phase hv ps now pto
    have hstd := detectSpurious_start hv ps now pto
    have hrep := detectSpurious_rep hi ps now pto
    obtain ⟨f1, f2, f3, f4, f5, f6, f7, f8, f9⟩ := onAcked_facts h1 (fun hlv hp => by
        rcases hph with h0 | h0
        · rw [h0] at hp; exact hl.2.2 hlv hp
        · rw [hp] at h0; cases h0)
      (fun hp => by
        rcases hph with h0 | h0
        · rw [h0] at hp ⊢; exact hv.start hp
        · rw [hp] at h0; cases h0)
    refine ⟨by rw [h3, h2]; exact hi.sentNext, ?_, fun st hst => ?_, fun n hn hle => ?_⟩
    · have := hrep.same h2 h3 h4
      exact ⟨by rw [f3]; exact this.recNext, by rw [f3]; exact this.rep⟩
    · rw [onAcked_stored h1] at hst
      rcases hstd with h0 | h0
      · rw [h0] at hst; cases hst
      · rw [h0] at hst; exact (hi.stored st hst).same h2 h3 h4
    · rw [h3] at hn
      rw [h4] at hle
      have h0 := hi.phase n hn hle
      rcases f6 with h6 | h6
      · rw [h6]
        rcases hph with h5 | h5
        · rw [h5]; exact h0
        · exact h5
      · rw [h6]; rfl
  | ce p =>
    injection h1 with h1
    simp only [CcEv.next, CcEv.sent', CcEv.reported] at h2 h3 h4
    have hsn : ∀ n ∈ h'.sent, n < h'.next := by rw [h3, h2]; exact hi.sentNext
    obtain ⟨b1, b2⟩ := congestion_rec h.c p true
    have b1 : h'.c.cur.recStart = h.c.cur.recStart := by rw [← h1]; exact b1
    have b2 : h'.c.stored = h.c.stored ∨ h'.c.stored = some h.c.cur := by rw [← h1]; exact b2
    refine ⟨hsn, .reported (by rw [b1]; exact hi.cur.recNext) h2 hsn h4, fun st hst => ?_, fun n hn hle => ?_⟩
    · rcases b2 with b2 | b2
      · exact .reported (hi.stored st (b2.symm.trans hst)).recNext h2 hsn h4
      · rw [b2] at hst
        injection hst with hst
        exact .reported (hst ▸ hi.cur.recNext) h2 hsn h4
    · have := hsn n hn
      omega
  | lost f l pto ps =>
    simp only [CcEv.next, CcEv.sent', CcEv.reported] at h2 h3 h4
    have h1 : h.c.onLost f l pto ps = .ok h'.c := h1
    have hsn : ∀ n ∈ h'.sent, n < h'.next := by rw [h3, h2]; exact hi.sentNext
    obtain ⟨b1, b2, b3⟩ := onLost_rec h1
    by_cases hp : ps = []
    · rw [if_pos hp] at h4
      have hc := b3 hp
      exact ⟨hsn, by rw [hc]; exact hi.cur.same h2 h3 h4, by rw [hc]; exact fun st hst => (hi.stored st hst).same h2 h3 h4, by rw [hc, h3, h4]; exact hi.phase⟩
    · rw [if_neg hp] at h4
      refine ⟨hsn, .reported (by rw [b1]; exact hi.cur.recNext) h2 hsn h4, fun st hst => ?_, fun n hn hle => ?_⟩
      · rcases b2 with b2 | b2
        · exact .reported (hi.stored st (b2.symm.trans hst)).recNext h2 hsn h4
        · rw [b2] at hst
          injection hst with hst
          exact .reported (hst ▸ hi.cur.recNext) h2 hsn h4
      · have := hsn n hn
        omega
  | discard p =>
    simp only [CcEv.next, CcEv.sent', CcEv.reported] at h2 h3 h4
    have h1 : h.c.discard p = .ok h'.c := h1
    have e : h'.c.cur = h.c.cur ∧ h'.c.stored = h.c.stored := by
      unfold Cc.discard at h1
      split at h1
      · split at h1
        · injection h1 with h1; rw [← h1]; exact ⟨rfl, rfl⟩
        · cases h1
      · injection h1 with h1; rw [← h1]; exact ⟨rfl, rfl⟩
    obtain ⟨e1, e2⟩ := e
    exact ⟨by rw [h3, h2]; exact hi.sentNext, by rw [e1]; exact hi.cur.same h2 h3 h4, by rw [e2]; exact fun st hst => (hi.stored st hst).same h2 h3 h4,
      by rw [e1, h3, h4]; exact hi.phase⟩
  | clear =>
    injection hs with hs
    rw [← hs]
    exact ⟨hi.sentNext, ⟨hi.cur.recNext, hi.cur.rep⟩, fun st hst => ⟨(hi.stored st hst).recNext, (hi.stored st hst).rep⟩, hi.phase⟩
  | mtu n =>
    injection hs with hs
    rw [← hs]
    exact ⟨hi.sentNext, ⟨hi.cur.recNext, hi.cur.rep⟩, fun st hst => ⟨(hi.stored st hst).recNext, (hi.stored st hst).rep⟩, hi.phase⟩

theorem CcReached.rep (hr : CcReached m h) : CcRep h := by
  induction hr with
  | new _ _ => exact .new
  | step h0 hl hs ih => exact ih.step h0.inv hl hs

theorem CcRep.after (hi : CcRep h) {p : Pkt} (hp : p.pn ∈ h.sent) (hle : h.reported ≤ p.pn) : h.c.afterRecovery p = true := by
  unfold Cc.afterRecovery
  rw [hi.phase _ hp hle]
  cases hr : h.c.cur.recStart with
  | none => rfl
  | some r => simpa using hi.cur.rep _ hp hle r hr

/-! How much the window changes. -/

theorem ackLoop_bytes : ∀ (ps : List Pkt) (c : Cc) (l : Bool) (n : Nat), (c.ackLoop l n ps).2.2 ≤ n + bytesOf ps := by
  intro ps
  induction ps with
  | nil => intro c l n; exact Nat.le_refl _
  | cons p ps ih =>
    intro c l n
    unfold Cc.ackLoop
    simp only
    have h1 := ih (c.ackOne l n p).1 (c.ackOne l n p).2.1 (c.ackOne l n p).2.2
    have h2 : (c.ackOne l n p).2.2 ≤ n + p.len := by
      unfold Cc.ackOne
      split
      · simp only
        split
        · exact Nat.le_refl _
        · exact Nat.le_add_right _ _
      · exact Nat.le_add_right _ _
    have h3 : bytesOf (p :: ps) = p.len + bytesOf ps := rfl
    omega

theorem increase_le (ss : SsIn) (mtu n : Nat) : ss.increase mtu n ≤ n := by
  unfold SsIn.increase
  cases ss.cap with
  | none =>
    simp only
    split
    · exact Nat.div_le_self _ _
    · exact Nat.le_refl _
  | some l =>
    simp only
    split
    · exact Nat.le_trans (Nat.div_le_self _ _) (Nat.min_le_right _ _)
    · exact Nat.min_le_right _ _

theorem onAcked_slow {c c' : Cc} {ps : List Pkt} {now pto : Nat} {ss : SsIn} {bfi : Nat} (h : c.onAcked ps now pto ss bfi = .ok c')
    (hc : ((c.cleanup now pto).detectSpurious ps).cur = c.cur) (hs : c.cur.ssthresh = none) (hl : ss.leave = false) :
    c'.cur.cwnd ≤ c.cur.cwnd + bytesOf ps := by
  unfold Cc.onAcked at h
  simp only at h
  generalize hgen : (c.cleanup now pto).detectSpurious ps = c₀ at *
  obtain ⟨a1, a2, a3, a4, _⟩ := ackLoop_facts ps c₀ true 0
  have hb := ackLoop_bytes ps c₀ true 0
  rw [hc] at a1 a4
  rw [hs] at a4
  split at h
  · injection h with h
    rw [← h]
    omega
  · have e : ((c₀.ackLoop true 0 ps).1.growSlow ss (c₀.ackLoop true 0 ps).2.2).cur.ssthresh = none ∧
        ((c₀.ackLoop true 0 ps).1.growSlow ss (c₀.ackLoop true 0 ps).2.2).cur.cwnd ≤ c.cur.cwnd + bytesOf ps := by
      unfold Cc.growSlow
      rw [a4, if_pos (by rfl), if_neg (by rw [hl]; decide)]
      refine ⟨a4, ?_⟩
      show (c₀.ackLoop true 0 ps).1.cur.cwnd + _ ≤ _
      have := increase_le ss (c₀.ackLoop true 0 ps).1.mtu (c₀.ackLoop true 0 ps).2.2
      omega
    unfold Cc.growAvoid at h
    rw [e.1, if_neg (by simp)] at h
    injection h with h
    rw [← h]
    exact e.2

theorem onAcked_reno {c c' : Cc} {ps : List Pkt} {now pto : Nat} {ss : SsIn} {bfi s : Nat} (h : c.onAcked ps now pto ss bfi = .ok c')
    (hc : ((c.cleanup now pto).detectSpurious ps).cur = c.cur) (hs : c.cur.ssthresh = some s) (hle : s ≤ c.cur.cwnd) (ha : c.alg = .reno) :
    c'.cur.cwnd ≤ c.cur.cwnd + (bytesOf ps / c.cur.cwnd + 1) * c.mtu := by
  obtain ⟨d1, d2, d3, _⟩ := detectSpurious_cases c ps now pto
  unfold Cc.onAcked at h
  simp only at h
  generalize hgen : (c.cleanup now pto).detectSpurious ps = c₀ at *
  obtain ⟨a1, a2, a3, a4, a5, a6, _⟩ := ackLoop_facts ps c₀ true 0
  have hb := ackLoop_bytes ps c₀ true 0
  rw [hc] at a1 a4
  rw [hs] at a4
  rw [d2] at a5
  rw [d3, ha] at a6
  split at h
  · injection h with h
    rw [← h]
    omega
  · have e : (c₀.ackLoop true 0 ps).1.growSlow ss (c₀.ackLoop true 0 ps).2.2 = (c₀.ackLoop true 0 ps).1 := by
      unfold Cc.growSlow
      rw [a4, a1, if_neg (by simp only [Option.all_some, decide_eq_true_eq]; omega)]
    rw [e] at h
    generalize c₀.ackLoop true 0 ps = r at *
    unfold Cc.growAvoid at h
    split at h
    · simp only at h
      split at h
      · cases h
      · rename_i hb0
        injection h with h
        rw [← h]
        show r.1.cur.cwnd + (Nat.min r.1.cur.acked (r.1.bytesFor bfi) + r.2.2) / r.1.bytesFor bfi * r.1.mtu ≤ _
        have hbf : r.1.bytesFor bfi = c.cur.cwnd := by unfold Cc.bytesFor; rw [a6]; exact a1
        rw [hbf] at hb0 ⊢
        rw [a1, a5]
        refine Nat.add_le_add_left (Nat.mul_le_mul_right _ ?_) _
        have h1 : Nat.min r.1.cur.acked c.cur.cwnd + r.2.2 ≤ bytesOf ps + c.cur.cwnd := by
          have : Nat.min r.1.cur.acked c.cur.cwnd ≤ c.cur.cwnd := Nat.min_le_right _ _
          omega
        have h2 := Nat.div_le_div_right (c := c.cur.cwnd) h1
        rw [Nat.add_div_right _ (Nat.pos_of_ne_zero hb0)] at h2
        exact h2
    · injection h with h
      rw [← h]
      omega

theorem reduce_half (a : Alg) (ecn : Bool) (x : Nat) : x / 2 ≤ a.reduce ecn x ∧ a.reduce ecn x ≤ x * (if ecn then 85 else 70) / 100 := by
  unfold Alg.reduce
  cases a <;> cases ecn <;> simp <;> omega

theorem congestion_half (c : Cc) (p : Pkt) (ecn : Bool) : c.cur.cwnd / 2 ≤ (c.congestion p ecn).1.cur.cwnd ∧
    (c.afterRecovery p = true → (c.congestion p ecn).1.cur.cwnd ≤ Nat.max (c.cur.cwnd * (if ecn then 85 else 70) / 100) (2 * c.mtu)) := by
  obtain ⟨h1, h2⟩ := reduce_half c.alg ecn c.cur.cwnd
  unfold Cc.congestion
  cases ha : c.afterRecovery p with
  | true =>
    rw [if_pos rfl]
    refine ⟨Nat.le_trans h1 (Nat.le_max_left _ _), fun _ => ?_⟩
    show Nat.max _ (c.mtu * 2) ≤ _
    exact Nat.max_le.mpr ⟨Nat.le_trans h2 (Nat.le_max_left _ _), by rw [Nat.mul_comm]; exact Nat.le_max_right _ _⟩
  | false =>
    rw [if_neg (by decide)]
    exact ⟨Nat.div_le_self _ _, fun h => by cases h⟩

theorem onLost_half {c c' : Cc} {f l : Option Nat} {pto : Nat} {ps : List Pkt} (h : c.onLost f l pto ps = .ok c') (hn : ¬ Stretch pto ps) :
    c.cur.cwnd / 2 ≤ c'.cur.cwnd := by
  unfold Cc.onLost at h
  split at h
  · cases h
  · rename_i c₁ h1
    obtain ⟨a1, a2, a3, a4, _⟩ := lostAll_cur h1
    simp only at h
    split at h
    · injection h with h
      rw [← h, a1]
      exact Nat.div_le_self _ _
    · rename_i last hl
      have hh := (congestion_half c₁ last false).1
      rw [a1] at hh
      rcases persistent_cases h with rfl | ⟨hst, rfl⟩
      · exact hh
      · exfalso
        obtain ⟨a, ha, b, hb, s1, s2, s3, s4⟩ := hst
        refine hn ⟨a, (List.mem_filter.mp ha).1, b, (List.mem_filter.mp hb).1, s1, s2, s3, fun n h1 h2 => ?_⟩
        obtain ⟨p, hp, e⟩ := s4 n h1 h2
        exact ⟨p, (List.mem_filter.mp hp).1, e⟩

theorem onLost_reduces {c c' : Cc} {f l : Option Nat} {pto : Nat} {ps : List Pkt} (h : c.onLost f l pto ps = .ok c') {p : Pkt} (hp : p ∈ ps)
    (hf : p.inFlight = true) (hm : p.pmtud = false) (hso : ps.Pairwise fun a b => a.pn < b.pn)
    (ha : ∀ q ∈ ps, p.pn ≤ q.pn → c.afterRecovery q = true) : c'.cur.cwnd ≤ Nat.max (c.cur.cwnd * 70 / 100) (2 * c.mtu) := by
  unfold Cc.onLost at h
  split at h
  · cases h
  · rename_i c₁ h1
    obtain ⟨a1, a2, a3, a4, _⟩ := lostAll_cur h1
    simp only at h
    have hmem : p ∈ ((ps.filter fun p => !p.pmtud).filter (·.inFlight)) :=
      List.mem_filter.mpr ⟨List.mem_filter.mpr ⟨hp, by simp [hm]⟩, hf⟩
    split at h
    · rename_i hn
      rw [List.getLast?_eq_none_iff] at hn
      rw [hn] at hmem
      cases hmem
    · rename_i last hl
      have hso' : ((ps.filter fun p => !p.pmtud).filter (·.inFlight)).Pairwise fun a b => a.pn < b.pn := (hso.filter _).filter _
      obtain ⟨ys, hys⟩ := List.getLast?_eq_some_iff.mp hl
      have hle : p.pn ≤ last.pn := by
        rw [hys] at hmem hso'
        rcases List.mem_append.mp hmem with hm' | hm'
        · exact Nat.le_of_lt ((List.pairwise_append.mp hso').2.2 p hm' last List.mem_cons_self)
        · exact Nat.le_of_eq (congrArg Pkt.pn (List.mem_singleton.mp hm'))
      have hlast : last ∈ ps := by
        have : last ∈ ((ps.filter fun p => !p.pmtud).filter (·.inFlight)) := by rw [hys]; exact List.mem_append.mpr (.inr List.mem_cons_self)
        exact (List.mem_filter.mp (List.mem_filter.mp this).1).1
      have haft : c₁.afterRecovery last = true := by
        have := ha last hlast hle
        unfold Cc.afterRecovery at this ⊢
        rw [a1]; exact this
      have hh := (congestion_half c₁ last false).2 haft
      rw [a1, a3] at hh
      rcases persistent_cases h with rfl | ⟨_, rfl⟩
      · exact hh
      · show Cc.min _ ≤ _
        have : (c₁.congestion last false).1.min = 2 * c.mtu := by
          unfold Cc.min
          rw [congestion_mtu, a3, Nat.mul_comm]
        rw [this]
        exact Nat.le_max_right _ _

end Neqo.Rec
