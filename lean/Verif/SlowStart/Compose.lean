import Verif.SlowStart.PropsSearch
import Verif.SlowStart.PropsHy
import Verif.Recovery.PropsCc

/-!
# The congestion controller with its slow start algorithm (C30, C99, C100)

The theorems on the congestion window (`Recovery/PropsCc.lean`) are about a controller that is told what the slow start
algorithm answers, and assume that slow start is not left before something was sent after persistent congestion.  Here
the algorithm is the one that is modelled, and that is a theorem.
-/
namespace Neqo.Ss
open Neqo.Rec

/-! ## Specification -/

/-- The calls made on a congestion controller; with an acknowledgement comes the latest round-trip time. -/
inductive CtlEv where
  | sent (p : Pkt)
  | acked (ps : List Pkt) (now pto rtt bfi : Nat)
  | ce (p : Pkt)
  | lost (first prevLargest : Option Nat) (pto : Nat) (ps : List Pkt)
  | discard (p : Pkt)
  | clear
  | mtu (n : Nat)

/-- The code; also what slow start answered. -/
def Ctl.step (x : Ctl) : CtlEv → Except Err (Ctl × SsIn)
  | .sent p => .ok (x.onSent p, {})
  | .acked ps now pto rtt bfi => x.onAcked ps now pto rtt bfi
  | .ce p => .ok ({ x with c := x.c.onCe p }, {})
  | .lost f l pto ps => do
    let y ← x.onLost f l pto ps
    .ok (y, {})
  | .discard p => do
    let c ← x.c.discard p
    .ok ({ x with c := c }, {})
  | .clear => .ok ({ x with c := { x.c with flight := 0 } }, {})
  | .mtu n => .ok ({ x with c := { x.c with mtu := n } }, {})

/-- The call, with the answer of slow start. -/
def CtlEv.cc (ss : SsIn) : CtlEv → CcEv
  | .sent p => .sent p
  | .acked ps now pto _ bfi => .acked ps now pto ss bfi
  | .ce p => .ce p
  | .lost f l pto ps => .lost f l pto ps
  | .discard p => .discard p
  | .clear => .clear
  | .mtu n => .mtu n

/-- A controller with what was observed, and its slow start algorithm. -/
structure CtlHist where
  h : CcHist
  a : Algo

/-- The code, together with the observations of `CcHist`. -/
def CtlHist.step (x : CtlHist) (e : CtlEv) : Except Err (CtlHist × SsIn) := do
  let r ← ({ c := x.h.c, a := x.a } : Ctl).step e
  let h ← x.h.step (e.cc r.2)
  .ok ({ h := { h with c := r.1.c }, a := r.1.a }, r.2)

/-- As `CcLegal`, but nothing is assumed of what slow start answers; round-trip times are at least 3 ns. -/
def CtlLegal (m : Nat) (h : CcHist) : CtlEv → Prop
  | .sent p => h.next ≤ p.pn
  | .acked ps _ _ rtt bfi => (∀ p ∈ ps, p.pn ∈ h.sent) ∧ 0 < bfi ∧ 3 ≤ rtt
  | .ce p => p.pn ∈ h.sent
  | .lost _ _ _ ps => (∀ p ∈ ps, p.pn ∈ h.sent) ∧ ps.Pairwise fun a b => a.pn < b.pn
  | .mtu n => m ≤ n
  | _ => True

instance (m h e) : Decidable (CtlLegal m h e) := by
  cases e <;> (unfold CtlLegal; infer_instance)

/-- A new algorithm of any of the three kinds. -/
inductive Fresh : Algo → Prop
  | classic : Fresh .classic
  | hystart (paced mode) : Fresh (.hystart { paced := paced, mode := mode })
  | search : Fresh (.search {})

inductive CtlReached (m : Nat) : CtlHist → Prop
  | new {alg mtu sp a} (hm : 0 < m) (hmtu : m ≤ mtu) (ha : Fresh a) : CtlReached m { h := .new alg mtu sp, a := a }
  | step {x x' e ss} : CtlReached m x → CtlLegal m x.h e → x.step e = .ok (x', ss) → CtlReached m x'

/-- Reachable, with the calls made so far, the newest first. -/
inductive CtlTraced (m : Nat) : CtlHist → List CtlEv → Prop
  | new {alg mtu sp a} (hm : 0 < m) (hmtu : m ≤ mtu) (ha : Fresh a) : CtlTraced m { h := .new alg mtu sp, a := a } []
  | step {x x' e ss evs} : CtlTraced m x evs → CtlLegal m x.h e → x.step e = .ok (x', ss) → CtlTraced m x' (e :: evs)

/-- How the calls made on the controller show in HyStart++: all packets that are sent do (some of which it is not told of),
acknowledgements do, with the latest round-trip time and the first packet (which is the newest one), but not when the window was
not used or slow start is over, and a loss only if it is persistent congestion. -/
inductive Shows : List CtlEv → List HEv → Prop
  | nil : Shows [] []
  | sent {evs tr} (p told) : Shows evs tr → Shows (.sent p :: evs) (.sent p.pn told :: tr)
  | ack {evs tr} (p ps now pto rtt bfi) : Shows evs tr → Shows (.acked (p :: ps) now pto rtt bfi :: evs) (.ack rtt p.pn :: tr)
  | unused {evs tr} (ps now pto rtt bfi) : Shows evs tr → Shows (.acked ps now pto rtt bfi :: evs) tr
  | reset {evs tr} (f l pto ps) : Shows evs tr → Shows (.lost f l pto ps :: evs) (.reset :: tr)
  | lost {evs tr} (f l pto ps) : Shows evs tr → Shows (.lost f l pto ps :: evs) tr
  | ce {evs tr} (p) : Shows evs tr → Shows (.ce p :: evs) tr
  | discard {evs tr} (p) : Shows evs tr → Shows (.discard p :: evs) tr
  | clear {evs tr} : Shows evs tr → Shows (.clear :: evs) tr
  | mtu {evs tr} (n) : Shows evs tr → Shows (.mtu n :: evs) tr

/-! ## Lemmas -/

/-- SEARCH is in a state of its specification. -/
def Sound : Algo → Prop
  | .search s => ∃ v, Sim s v ∧ ViewOK v
  | _ => True

/-- Nothing was sent since the last restart. -/
def Quiet : Algo → Prop
  | .classic => True
  | .hystart h => h.windowEnd = none
  | .search s => ∃ v, Sim s v ∧ ViewOK v ∧ v.sent = 0

theorem Quiet.sound {a : Algo} (h : Quiet a) : Sound a := by
  cases a with
  | search s => obtain ⟨v, h1, h2, _⟩ := h; exact ⟨v, h1, h2⟩
  | _ => trivial

theorem Fresh.quiet {a : Algo} (h : Fresh a) : Quiet a := by
  cases h with
  | classic => trivial
  | hystart => rfl
  | search => exact ⟨{}, Sim.new, ViewOK.new, rfl⟩

theorem Sound.onSent {a : Algo} (h : Sound a) (pn len : Nat) : Sound (a.onSent pn len) := by
  cases a with
  | search s =>
    obtain ⟨v, h1, h2⟩ := h
    obtain ⟨s', e, h'⟩ := h1.step (e := .sent len) (fun _ _ he => by cases he)
    injection e with e
    injection e with e _
    exact ⟨_, e ▸ h', h2.step (e := .sent len) trivial⟩
  | _ => trivial

theorem Sound.recordAcked {a : Algo} (h : Sound a) (n : Nat) : Sound (a.recordAcked n) ∧ (Quiet a → Quiet (a.recordAcked n)) := by
  cases a with
  | search s =>
    obtain ⟨v, h1, h2⟩ := h
    obtain ⟨s', e, h'⟩ := h1.step (e := .delivered n) (fun _ _ he => by cases he)
    injection e with e
    injection e with e _
    refine ⟨⟨_, e ▸ h', h2.step (e := .delivered n) trivial⟩, fun ⟨v, h1, h2, h3⟩ => ?_⟩
    obtain ⟨s', e, h'⟩ := h1.step (e := .delivered n) (fun _ _ he => by cases he)
    injection e with e
    injection e with e _
    exact ⟨_, e ▸ h', h2.step (e := .delivered n) trivial, h3⟩
  | hystart h => exact ⟨trivial, id⟩
  | classic => exact ⟨trivial, id⟩

theorem Sound.reset {a : Algo} (h : Sound a) : Quiet a.reset := by
  cases a with
  | search s =>
    obtain ⟨v, h1, h2⟩ := h
    obtain ⟨s', e, h'⟩ := h1.step (e := .reset) (fun _ _ he => by cases he)
    injection e with e
    injection e with e _
    exact ⟨_, e ▸ h', h2.step (e := .reset) trivial, rfl⟩
  | hystart h => rfl
  | classic => trivial

theorem Sound.onAcked {a : Algo} (hs : Sound a) {rtt largest now : Nat} (hrtt : 3 ≤ rtt) :
    ∃ a' b, a.onAcked rtt largest now = .ok (a', b) ∧ Sound a' ∧ (Quiet a → Quiet a' ∧ b = false) := by
  cases a with
  | classic => exact ⟨_, _, rfl, trivial, fun _ => ⟨trivial, rfl⟩⟩
  | hystart h =>
    refine ⟨_, _, rfl, trivial, fun hq => ?_⟩
    have hq : h.windowEnd = none := hq
    show (h.onAcked rtt largest).1.windowEnd = none ∧ (h.onAcked rtt largest).2 = false
    have hw : (h.collect rtt).check.windowEnd = none := by
      rcases check_cases (h.collect rtt) with e | ⟨_, _, _, _, _, _, _, _, _, e⟩ | ⟨_, _, _, _, _, _, e⟩ <;> (rw [e]; exact hq)
    unfold Hy.onAcked
    dsimp only
    rw [hw]
    exact ⟨hw, rfl⟩
  | search s =>
    obtain ⟨v, h1, h2⟩ := hs
    obtain ⟨s', e, h'⟩ := h1.step (e := .ack rtt now) (fun r n he => by injection he with he _; omega)
    have e : s.onAcked rtt now = .ok (s', (v.step (.ack rtt now)).2) := e
    refine ⟨.search s', (v.step (.ack rtt now)).2, ?_, ⟨_, h', h2.step hrtt⟩, fun ⟨w, g1, g2, g3⟩ => ?_⟩
    · unfold Algo.onAcked
      dsimp only
      rw [e]
      rfl
    · obtain ⟨s'', e', h''⟩ := g1.step (e := .ack rtt now) (fun r n he => by injection he with he _; omega)
      have e' : s.onAcked rtt now = .ok (s'', (w.step (.ack rtt now)).2) := e'
      rw [e] at e'
      injection e' with e'
      injection e' with e1 e2
      subst e1
      refine ⟨⟨_, h'', g2.step hrtt, ?_⟩, e2.trans (g2.silent hrtt g3)⟩
      unfold View.step
      dsimp only
      split
      · exact g3
      · split
        · exact g3
        · split
          · rfl
          · exact g3

theorem ask_ok {a : Algo} (h : Sound a) (c : Cc) (limited : Bool) (new largest now : Nat) {rtt : Nat} (hrtt : 3 ≤ rtt) :
    ∃ a' ss, Ctl.ask a c limited new rtt largest now = .ok (a', ss) ∧ Sound a' ∧ (Quiet a → Quiet a' ∧ ss.leave = false) := by
  have hs : Sound (if c.cur.phase = .slowStart then a.recordAcked new else a) ∧ (Quiet a → Quiet (if c.cur.phase = .slowStart then a.recordAcked new else a)) := by
    split
    · exact h.recordAcked new
    · exact ⟨h, id⟩
  unfold Ctl.ask
  dsimp only
  generalize (if c.cur.phase = .slowStart then a.recordAcked new else a) = a₁ at hs ⊢
  split
  · obtain ⟨a', b, e, s1, s2⟩ := hs.1.onAcked (largest := largest) (now := now) hrtt
    refine ⟨a', a'.answer b, by rw [e]; rfl, s1, fun hq => ?_⟩
    obtain ⟨q1, q2⟩ := s2 (hs.2 hq)
    refine ⟨q1, ?_⟩
    rw [q2]
    cases a' <;> rfl
  · exact ⟨a₁, {}, rfl, hs.1, fun hq => ⟨hs.2 hq, rfl⟩⟩

/-- The steps of the whole are steps of the controller. -/
theorem step_cc {x y : Ctl} {e : CtlEv} {ss : SsIn} (h : x.step e = .ok (y, ss)) : x.c.step (e.cc ss) = .ok y.c := by
  cases e with
  | sent p => injection h with h; injection h with h _; subst h; rfl
  | ce p => injection h with h; injection h with h _; subst h; rfl
  | clear => injection h with h; injection h with h _; subst h; rfl
  | mtu n => injection h with h; injection h with h _; subst h; rfl
  | discard p =>
    obtain ⟨c, h1, h2⟩ := Except.bind_eq_ok.mp h
    injection h2 with h2; injection h2 with h2 _; subst h2
    exact h1
  | lost f l pto ps =>
    obtain ⟨z, h1, h2⟩ := Except.bind_eq_ok.mp h
    injection h2 with h2; injection h2 with h2 _; subst h2
    obtain ⟨c, h3, h4⟩ := Except.bind_eq_ok.mp h1
    show x.c.onLost f l pto ps = .ok z.c
    rw [h3]
    split at h4
    · injection h4 with h4; rw [← h4]
    · obtain ⟨b, _, h5⟩ := Except.bind_eq_ok.mp h4
      injection h5 with h5; rw [← h5]
  | acked ps now pto rtt bfi =>
    have h : x.onAcked ps now pto rtt bfi = .ok (y, ss) := h
    unfold Ctl.onAcked at h
    split at h
    · cases h
    · obtain ⟨q, _, h2⟩ := Except.bind_eq_ok.mp h
      obtain ⟨c, h3, h4⟩ := Except.bind_eq_ok.mp h2
      injection h4 with h4
      injection h4 with h4 h5
      subst h4 h5
      exact h3

theorem onLost_phase {x y : Ctl} {f l : Option Nat} {pto : Nat} {ps : List Pkt} (hs : Sound x.a) (hq : x.c.cur.phase = .persistent → Quiet x.a) (h : x.onLost f l pto ps = .ok y) :
    Sound y.a ∧ (y.c.cur.phase = .persistent → Quiet y.a) := by
  obtain ⟨c, h1, h2⟩ := Except.bind_eq_ok.mp h
  unfold Cc.onLost at h1
  split at h1
  · cases h1
  · rename_i c₁ hc₁
    obtain ⟨a1, _⟩ := lostAll_cur hc₁
    dsimp only at h1
    cases hg : ((ps.filter fun p => !p.pmtud).filter (·.inFlight)).getLast? with
    | none =>
      rw [hg] at h1 h2
      injection h1 with h1
      injection h2 with h2
      subst h1 h2
      exact ⟨hs, fun hp => hq (by rw [← a1]; exact hp)⟩
    | some last =>
      rw [hg] at h1 h2
      dsimp only at h1 h2
      obtain ⟨b, h3, h4⟩ := Except.bind_eq_ok.mp h2
      injection h4 with h4
      subst h4
      have hcg : (c₁.congestion last false).1.cur.phase = .persistent → c₁.cur.phase = .persistent := by
        unfold Cc.congestion
        split
        · intro hp; cases hp
        · exact id
      cases b with
      | true => exact ⟨(Sound.reset hs).sound, fun _ => Sound.reset hs⟩
      | false =>
        refine ⟨hs, fun hp => hq ?_⟩
        have hp : c.cur.phase = .persistent := hp
        have : c = (c₁.congestion last false).1 := by
          unfold Cc.persistent at h1
          unfold Ctl.persists at h3
          cases f with
          | none => injection h1 with h1; exact h1.symm
          | some f =>
            dsimp only at h1 h3
            rw [h3] at h1
            injection h1 with h1
            exact h1.symm
        rw [this] at hp
        rw [← a1]
        exact hcg hp

/-- What is known of a controller with its algorithm. -/
structure CtlInv (m : Nat) (x : CtlHist) : Prop where
  cc : CcReached m x.h
  sound : Sound x.a
  quiet : x.h.c.cur.phase = .persistent → Quiet x.a

/-- The answer to an acknowledgement. -/
theorem CtlInv.acked {m : Nat} {x : CtlHist} (hi : CtlInv m x) {ps : List Pkt} {now pto rtt bfi : Nat} (hl : CtlLegal m x.h (.acked ps now pto rtt bfi)) (hne : ps ≠ []) :
    ∃ y ss, ({ c := x.h.c, a := x.a } : Ctl).onAcked ps now pto rtt bfi = .ok (y, ss) ∧ (x.h.c.cur.phase = .persistent → ss.leave = false ∧ Quiet y.a) ∧ Sound y.a := by
  cases ps with
  | nil => exact absurd rfl hne
  | cons p ps =>
    unfold Ctl.onAcked
    dsimp only
    obtain ⟨a', ss, e, s1, s2⟩ := ask_ok hi.sound (((x.h.c.cleanup now pto).detectSpurious (p :: ps)).ackLoop true 0 (p :: ps)).1
      (((x.h.c.cleanup now pto).detectSpurious (p :: ps)).ackLoop true 0 (p :: ps)).2.1 (((x.h.c.cleanup now pto).detectSpurious (p :: ps)).ackLoop true 0 (p :: ps)).2.2
      p.pn now hl.2.2
    obtain ⟨c', k, _⟩ := Cc.onAcked_ok hi.cc.inv.ok (p :: ps) now pto ss hl.2.1
    refine ⟨{ c := c', a := a' }, ss, ?_, fun hp => ?_, s1⟩
    · rw [e]
      show (do let c ← x.h.c.onAcked (p :: ps) now pto ss bfi; Except.ok (({ c := c, a := a' } : Ctl), ss)) = _
      rw [k]
      rfl
    · obtain ⟨q1, q2⟩ := s2 (hi.quiet hp)
      exact ⟨q2, q1⟩

theorem CcHist.step_of {h : CcHist} {e : CcEv} {c : Cc} (hs : h.c.step e = .ok c) : ∃ h', h.step e = .ok h' ∧ h'.c = c := by
  unfold CcHist.step
  rw [hs]
  cases e <;> exact ⟨_, rfl, rfl⟩

theorem CtlInv.step {m : Nat} {x x' : CtlHist} {e : CtlEv} {ss : SsIn} (hi : CtlInv m x) (hl : CtlLegal m x.h e) (hs : x.step e = .ok (x', ss)) : CtlInv m x' := by
  obtain ⟨⟨y, ss'⟩, h1, h2⟩ := Except.bind_eq_ok.mp hs
  obtain ⟨h', h3, h4⟩ := Except.bind_eq_ok.mp h2
  dsimp only at h3 h4
  injection h4 with h4
  injection h4 with h4 h5
  subst h5
  have hc := step_cc h1
  have hcc : h'.c = y.c := by
    obtain ⟨h'', g1, g2⟩ := CcHist.step_of hc
    have : h' = h'' := by
      have := h3.symm.trans g1
      injection this
    rw [this]; exact g2
  have he : ({ h' with c := y.c } : CcHist) = h' := by rw [← hcc]
  rw [he] at h4
  subst h4
  have legal : CcLegal m x.h (e.cc ss') := by
    cases e with
    | acked ps now pto rtt bfi =>
      refine ⟨hl.1, hl.2.1, fun hlv hp => ?_⟩
      have hne : ps ≠ [] := by
        intro hn
        subst hn
        cases h1
      obtain ⟨y', s', q1, q2, _⟩ := hi.acked hl hne
      have h1 : ({ c := x.h.c, a := x.a } : Ctl).onAcked ps now pto rtt bfi = .ok (y, ss') := h1
      rw [h1] at q1
      injection q1 with q1
      injection q1 with _ q1
      subst q1
      rw [(q2 hp).1] at hlv
      cases hlv
    | sent p => exact hl
    | ce p => exact hl
    | lost f l pto ps => exact hl
    | discard p => trivial
    | clear => trivial
    | mtu n => exact hl
  have hr : CcReached m h' := .step hi.cc legal h3
  suffices hq : Sound y.a ∧ (y.c.cur.phase = .persistent → Quiet y.a) from ⟨hr, hq.1, fun hp => hq.2 (hcc ▸ hp)⟩
  cases e with
  | sent p =>
    injection h1 with h1
    injection h1 with h1 _
    subst h1
    constructor
    · show Sound (if _ then _ else _)
      split
      · exact hi.sound.onSent _ _
      · exact hi.sound
    · intro hp
      exfalso
      have hp : (x.h.c.onSent p).cur.phase = .persistent := hp
      rw [(x.h.c.onSent_eq p).2.2.2.1] at hp
      have := (exitTransient_facts x.h.c.cur p.pn).2.1
      rw [hp] at this
      cases this
  | ce p =>
    injection h1 with h1
    injection h1 with h1 _
    subst h1
    refine ⟨hi.sound, fun hp => hi.quiet ?_⟩
    have hp : (x.h.c.onCe p).cur.phase = .persistent := hp
    unfold Cc.onCe Cc.congestion at hp
    split at hp
    · cases hp
    · exact hp
  | clear =>
    injection h1 with h1
    injection h1 with h1 _
    subst h1
    exact ⟨hi.sound, hi.quiet⟩
  | mtu n =>
    injection h1 with h1
    injection h1 with h1 _
    subst h1
    exact ⟨hi.sound, hi.quiet⟩
  | discard p =>
    obtain ⟨c, g1, g2⟩ := Except.bind_eq_ok.mp h1
    injection g2 with g2
    injection g2 with g2 _
    subst g2
    refine ⟨hi.sound, fun hp => hi.quiet ?_⟩
    have hp : c.cur.phase = .persistent := hp
    unfold Cc.discard at g1
    split at g1
    · split at g1
      · injection g1 with g1; rw [← g1] at hp; exact hp
      · cases g1
    · injection g1 with g1; rw [← g1] at hp; exact hp
  | lost f l pto ps =>
    obtain ⟨z, g1, g2⟩ := Except.bind_eq_ok.mp h1
    injection g2 with g2
    injection g2 with g2 _
    subst g2
    exact onLost_phase hi.sound hi.quiet g1
  | acked ps now pto rtt bfi =>
    have hne : ps ≠ [] := by
      intro hn
      subst hn
      cases h1
    obtain ⟨y', s', q1, q2, q3⟩ := hi.acked hl hne
    have h1' : ({ c := x.h.c, a := x.a } : Ctl).onAcked ps now pto rtt bfi = .ok (y, ss') := h1
    rw [h1'] at q1
    injection q1 with q1
    injection q1 with q1 q1'
    subst q1 q1'
    refine ⟨q3, fun hp => (q2 ?_).2⟩
    have hc : x.h.c.onAcked ps now pto ss' bfi = .ok y.c := hc
    have hph := detectSpurious_phase hi.cc.inv ps now pto
    obtain ⟨f1, f2, f3, f4, f5, f6, _⟩ := onAcked_facts hc (fun hlv hp => by
        rcases hph with h0 | h0
        · rw [h0] at hp; exact legal.2.2 hlv hp
        · rw [hp] at h0; cases h0)
      (fun hp => by
        rcases hph with h0 | h0
        · rw [h0] at hp ⊢; exact hi.cc.inv.start hp
        · rw [hp] at h0; cases h0)
    rcases f6 with f6 | f6
    · rw [f6] at hp
      rcases hph with h0 | h0
      · rw [h0] at hp; exact hp
      · rw [hp] at h0; cases h0
    · rw [f6] at hp; cases hp

theorem CtlReached.inv {m : Nat} {x : CtlHist} (hr : CtlReached m x) : CtlInv m x := by
  induction hr with
  | new hm hmtu ha => exact ⟨.new hm hmtu, ha.quiet.sound, fun _ => ha.quiet⟩
  | step _ hl hs ih => exact ih.step hl hs

theorem CtlTraced.reached {m : Nat} {x : CtlHist} {evs : List CtlEv} (hr : CtlTraced m x evs) : CtlReached m x := by
  induction hr with
  | new hm hmtu ha => exact .new hm hmtu ha
  | step _ hl hs ih => exact .step ih hl hs

theorem CtlHist.step_inv {x x' : CtlHist} {e : CtlEv} {ss : SsIn} (hs : x.step e = .ok (x', ss)) :
    ∃ y h', ({ c := x.h.c, a := x.a } : Ctl).step e = .ok (y, ss) ∧ x.h.step (e.cc ss) = .ok h' ∧ x'.h = h' ∧ x'.a = y.a := by
  obtain ⟨⟨y, ss'⟩, h1, h2⟩ := Except.bind_eq_ok.mp hs
  obtain ⟨h', h3, h4⟩ := Except.bind_eq_ok.mp h2
  dsimp only at h3 h4
  injection h4 with h4
  injection h4 with h4 h5
  subst h5
  have hc := step_cc h1
  have hcc : h'.c = y.c := by
    obtain ⟨h'', g1, g2⟩ := CcHist.step_of hc
    have : h' = h'' := by
      have := h3.symm.trans g1
      injection this
    rw [this]; exact g2
  refine ⟨y, h', h1, h3, ?_, by rw [← h4]⟩
  rw [← h4, ← hcc]

/-- HyStart++ in a controller. -/
structure Told (x : CtlHist) (h : Hy) (evs : List CtlEv) (tr : List HEv) : Prop where
  shows : Shows evs tr
  reached : HReached h tr
  sent : ∀ q ∈ x.h.sent, ∃ b, .sent q b ∈ tr
  next : ∀ q b, .sent q b ∈ tr → q < x.h.next

theorem Told.step {m : Nat} {x x' : CtlHist} {h : Hy} {evs : List CtlEv} {tr : List HEv} {e : CtlEv} {ss : SsIn} (ht : Told x h evs tr) (ha : x.a = .hystart h)
    (hl : CtlLegal m x.h e) (hs : x.step e = .ok (x', ss)) :
    ∃ h' tr', x'.a = .hystart h' ∧ Told x' h' (e :: evs) tr' ∧ (ss.leave = true → ∃ e', tr' = e' :: tr ∧ HLegal tr e' ∧ (h.step e').2 = true) := by
  obtain ⟨y, g, h1, h2, h3, h4⟩ := CtlHist.step_inv hs
  obtain ⟨n1, _⟩ := CcHist.step_rep h2
  obtain ⟨_, n2, _⟩ := CcHist.step_ok h2
  rw [← h3] at n1 n2
  -- calls that HyStart++ does not see
  have same : (∀ p, e ≠ .sent p) → y.a = x.a → Shows (e :: evs) tr → ss.leave = false →
      ∃ h' tr', x'.a = .hystart h' ∧ Told x' h' (e :: evs) tr' ∧ (ss.leave = true → ∃ e', tr' = e' :: tr ∧ HLegal tr e' ∧ (h.step e').2 = true) := by
    intro hne hy hsh hlv
    have m1 : x'.h.sent = x.h.sent := by cases e <;> first | exact n1 | exact absurd rfl (hne _)
    have m2 : x'.h.next = x.h.next := by cases e <;> first | exact n2 | exact absurd rfl (hne _)
    exact ⟨h, tr, by rw [h4, hy, ha], ⟨hsh, ht.reached, by rw [m1]; exact ht.sent, by rw [m2]; exact ht.next⟩, (fun hc => by rw [hlv] at hc; cases hc)⟩
  cases e with
  | ce p =>
    injection h1 with h1; injection h1 with h1 h1'; subst h1 h1'
    exact same (fun p hp => by cases hp) rfl (.ce p ht.shows) rfl
  | clear =>
    injection h1 with h1; injection h1 with h1 h1'; subst h1 h1'
    exact same (fun p hp => by cases hp) rfl (.clear ht.shows) rfl
  | mtu n =>
    injection h1 with h1; injection h1 with h1 h1'; subst h1 h1'
    exact same (fun p hp => by cases hp) rfl (.mtu n ht.shows) rfl
  | discard p =>
    obtain ⟨c, g1, g2⟩ := Except.bind_eq_ok.mp h1
    injection g2 with g2; injection g2 with g2 g2'; subst g2 g2'
    exact same (fun p hp => by cases hp) rfl (.discard p ht.shows) rfl
  | sent p =>
    injection h1 with h1; injection h1 with h1 h1'; subst h1 h1'
    obtain ⟨told, hto⟩ : ∃ told, x'.a = .hystart (h.step (.sent p.pn told)).1 := by
      rw [h4]
      show ∃ told, (if p.inFlight ∧ (x.h.c.cur.exitTransient p.pn).phase = .slowStart then x.a.onSent p.pn p.len else x.a) = _
      rw [ha]
      split
      · exact ⟨true, rfl⟩
      · exact ⟨false, rfl⟩
    have hl : x.h.next ≤ p.pn := hl
    have m1 : x'.h.sent = p.pn :: x.h.sent := n1
    have m2 : x'.h.next = p.pn + 1 := n2
    refine ⟨_, _, hto, ⟨.sent p told ht.shows, .step ht.reached (fun q b hq => by have := ht.next q b hq; omega), ?_, ?_⟩, (fun hc => by cases hc)⟩
    · intro q hq
      rw [m1] at hq
      rcases List.mem_cons.mp hq with rfl | hq
      · exact ⟨told, List.mem_cons_self⟩
      · obtain ⟨b, hb⟩ := ht.sent q hq
        exact ⟨b, List.mem_cons_of_mem _ hb⟩
    · intro q b hq
      rw [m2]
      rcases List.mem_cons.mp hq with hq | hq
      · injection hq with hq _; omega
      · have := ht.next q b hq; omega
  | lost f l pto ps =>
    obtain ⟨z, g1, g2⟩ := Except.bind_eq_ok.mp h1
    injection g2 with g2; injection g2 with g2 g2'; subst g2 g2'
    obtain ⟨c, _, g4⟩ := Except.bind_eq_ok.mp g1
    split at g4
    · injection g4 with g4
      subst g4
      exact same (fun p hp => by cases hp) rfl (.lost f l pto ps ht.shows) rfl
    · obtain ⟨b, _, g5⟩ := Except.bind_eq_ok.mp g4
      injection g5 with g5
      cases b with
      | false =>
        subst g5
        exact same (fun p hp => by cases hp) rfl (.lost f l pto ps ht.shows) rfl
      | true =>
        subst g5
        have m1 : x'.h.sent = x.h.sent := n1
        have m2 : x'.h.next = x.h.next := n2
        refine ⟨(h.step .reset).1, .reset :: tr, ?_, ⟨.reset f l pto ps ht.shows, .step ht.reached trivial, ?_, ?_⟩, (fun hc => by cases hc)⟩
        · rw [h4]
          show x.a.reset = _
          rw [ha]
          rfl
        · intro q hq
          rw [m1] at hq
          obtain ⟨b, hb⟩ := ht.sent q hq
          exact ⟨b, List.mem_cons_of_mem _ hb⟩
        · intro q b hq
          rw [m2]
          rcases List.mem_cons.mp hq with hq | hq
          · cases hq
          · exact ht.next q b hq
  | acked ps now pto rtt bfi =>
    have h1 : ({ c := x.h.c, a := x.a } : Ctl).onAcked ps now pto rtt bfi = .ok (y, ss) := h1
    cases ps with
    | nil => cases h1
    | cons p qs =>
      obtain ⟨r, g1, g2⟩ := Except.bind_eq_ok.mp h1
      obtain ⟨c, g3, g4⟩ := Except.bind_eq_ok.mp g2
      injection g4 with g4
      injection g4 with g4 g5
      unfold Ctl.ask at g1
      dsimp only at g1
      have hrec : ∀ (n : Nat) (q : Prop) [Decidable q], (if q then x.a.recordAcked n else x.a) = x.a := by
        intro n q _
        rw [ha]
        split <;> rfl
      rw [hrec] at g1
      split at g1
      · obtain ⟨r', k1, k2⟩ := Except.bind_eq_ok.mp g1
        injection k2 with k2
        rw [ha] at k1
        injection k1 with k1
        have m1 : x'.h.sent = x.h.sent := n1
        have m2 : x'.h.next = x.h.next := n2
        have hlg : HLegal tr (.ack rtt p.pn) := ht.sent p.pn (hl.1 p List.mem_cons_self)
        refine ⟨(h.step (.ack rtt p.pn)).1, .ack rtt p.pn :: tr, ?_, ⟨.ack p qs now pto rtt bfi ht.shows, .step ht.reached hlg, ?_, ?_⟩, fun hlv => ⟨_, rfl, hlg, ?_⟩⟩
        · rw [h4, ← g4, ← k2, ← k1]
          rfl
        · intro q hq
          rw [m1] at hq
          obtain ⟨b, hb⟩ := ht.sent q hq
          exact ⟨b, List.mem_cons_of_mem _ hb⟩
        · intro q b hq
          rw [m2]
          rcases List.mem_cons.mp hq with hq | hq
          · cases hq
          · exact ht.next q b hq
        · rw [← g5, ← k2, ← k1] at hlv
          exact hlv
      · injection g1 with g1
        refine same (fun p hp => by cases hp) ?_ (.unused _ now pto rtt bfi ht.shows) ?_
        · rw [← g4, ← g1]
        · rw [← g5, ← g1]

/-- Which algorithm it is does not change. -/
def Algo.kind : Algo → Nat
  | .classic => 0
  | .hystart _ => 1
  | .search _ => 2

theorem kind_kept {x y : Ctl} {e : CtlEv} {ss : SsIn} (h : x.step e = .ok (y, ss)) : y.a.kind = x.a.kind := by
  have k1 : ∀ (a : Algo) pn len, (a.onSent pn len).kind = a.kind := fun a pn len => by cases a <;> rfl
  have k2 : ∀ (a : Algo) n, (a.recordAcked n).kind = a.kind := fun a n => by cases a <;> rfl
  have k3 : ∀ (a : Algo), a.reset.kind = a.kind := fun a => by cases a <;> rfl
  have k4 : ∀ (a a' : Algo) r l n b, a.onAcked r l n = .ok (a', b) → a'.kind = a.kind := by
    intro a a' r l n b h
    cases a with
    | classic => injection h with h; injection h with h _; rw [← h]
    | hystart h' => injection h with h; injection h with h _; rw [← h]; rfl
    | search s =>
      obtain ⟨r, _, h2⟩ := Except.bind_eq_ok.mp h
      injection h2 with h2; injection h2 with h2 _; rw [← h2]; rfl
  cases e with
  | sent p =>
    injection h with h; injection h with h _; subst h
    show (if _ then _ else _ : Algo).kind = _
    split
    · exact k1 _ _ _
    · rfl
  | ce p => injection h with h; injection h with h _; subst h; rfl
  | clear => injection h with h; injection h with h _; subst h; rfl
  | mtu n => injection h with h; injection h with h _; subst h; rfl
  | discard p =>
    obtain ⟨c, h1, h2⟩ := Except.bind_eq_ok.mp h
    injection h2 with h2; injection h2 with h2 _; subst h2
    rfl
  | lost f l pto ps =>
    obtain ⟨z, h1, h2⟩ := Except.bind_eq_ok.mp h
    injection h2 with h2; injection h2 with h2 _; subst h2
    obtain ⟨c, h3, h4⟩ := Except.bind_eq_ok.mp h1
    split at h4
    · injection h4 with h4; rw [← h4]
    · obtain ⟨b, _, h5⟩ := Except.bind_eq_ok.mp h4
      injection h5 with h5; rw [← h5]
      cases b
      · rfl
      · exact k3 _
  | acked ps now pto rtt bfi =>
    have h : x.onAcked ps now pto rtt bfi = .ok (y, ss) := h
    unfold Ctl.onAcked at h
    split at h
    · cases h
    · obtain ⟨q, h1, h2⟩ := Except.bind_eq_ok.mp h
      obtain ⟨c, h3, h4⟩ := Except.bind_eq_ok.mp h2
      injection h4 with h4
      injection h4 with h4 h5
      rw [← h4]
      show q.1.kind = _
      unfold Ctl.ask at h1
      dsimp only at h1
      split at h1
      · obtain ⟨r, g1, g2⟩ := Except.bind_eq_ok.mp h1
        injection g2 with g2
        rw [← g2]
        show r.1.kind = _
        rw [k4 _ r.1 _ _ _ r.2 g1]
        split
        · exact k2 _ _
        · rfl
      · injection h1 with h1
        rw [← h1]
        show (if _ then _ else _ : Algo).kind = _
        split
        · exact k2 _ _
        · rfl

theorem CtlTraced.told {m : Nat} {x : CtlHist} {evs : List CtlEv} (hr : CtlTraced m x evs) : ∀ {h : Hy}, x.a = .hystart h → ∃ tr, Told x h evs tr := by
  induction hr with
  | new hm hmtu ha =>
    intro h he
    cases ha with
    | classic => cases he
    | search => cases he
    | hystart paced mode =>
      injection he with he
      subst he
      exact ⟨[], .nil, .new _ _, (fun q hq => by cases hq), (fun q b hq => by cases hq)⟩
  | @step x x' e ss evs _ hl hs ih =>
    intro h' he
    obtain ⟨y, g, h1, _, _, h4⟩ := CtlHist.step_inv hs
    cases hxa : x.a with
    | hystart h =>
      obtain ⟨tr, ht⟩ := ih hxa
      obtain ⟨h'', tr', k1, k2, _⟩ := ht.step hxa hl hs
      rw [he] at k1
      injection k1 with k1
      exact ⟨tr', k1 ▸ k2⟩
    | classic =>
      exfalso
      have := kind_kept h1
      rw [← h4, he] at this
      dsimp only at this
      rw [hxa] at this
      cases this
    | search s =>
      exfalso
      have := kind_kept h1
      rw [← h4, he] at this
      dsimp only at this
      rw [hxa] at this
      cases this

/-! ## Theorems -/

/-- C30: with any of the three slow start algorithms, the histories of the controller are among those that the theorems on the congestion
window are about: what is assumed there of slow start holds. -/
theorem C30_with_slow_start {m : Nat} {x : CtlHist} (hr : CtlReached m x) : CcReached m x.h := hr.inv.cc

/-- C30: acknowledgements do not fail, and right after persistent congestion, before anything else was sent, they do not end slow start. -/
theorem C30_restart_is_slow_start {m : Nat} {x : CtlHist} (hr : CtlReached m x) {ps : List Pkt} {now pto rtt bfi : Nat} (hl : CtlLegal m x.h (.acked ps now pto rtt bfi)) (hne : ps ≠ []) :
    ∃ x' ss, x.step (.acked ps now pto rtt bfi) = .ok (x', ss) ∧ CtlReached m x' ∧ x.h.c.cur.cwnd ≤ x'.h.c.cur.cwnd ∧ (x.h.c.cur.phase = .persistent → ss.leave = false) := by
  obtain ⟨y, ss, h1, h2, _⟩ := hr.inv.acked hl hne
  have hc := step_cc (e := .acked ps now pto rtt bfi) h1
  obtain ⟨h', g1, g2⟩ := CcHist.step_of hc
  have hs : x.step (.acked ps now pto rtt bfi) = .ok ({ h := { h' with c := y.c }, a := y.a }, ss) := by
    unfold CtlHist.step
    have h1' : ({ c := x.h.c, a := x.a } : Ctl).step (.acked ps now pto rtt bfi) = .ok (y, ss) := h1
    rw [h1']
    show (do let h ← x.h.step (CtlEv.cc ss (.acked ps now pto rtt bfi)); Except.ok (({ h := { h with c := y.c }, a := y.a } : CtlHist), ss)) = _
    rw [g1]
    rfl
  refine ⟨_, ss, hs, .step hr hl hs, ?_, fun hp => (h2 hp).1⟩
  dsimp only
  rw [← g2]
  have legal : CcLegal m x.h (.acked ps now pto ss bfi) := ⟨hl.1, hl.2.1, fun hlv hp => by rw [(h2 hp).1] at hlv; cases hlv⟩
  exact C30_ack_never_reduces hr.inv.cc legal g1

/-- C99: a controller with HyStart++ leaves slow start only after the round-trip times that were measured have gone up, and
after that four round trips have been made. -/
theorem C99_controller_leaves {m : Nat} {x x' : CtlHist} {h : Hy} {evs : List CtlEv} {e : CtlEv} {ss : SsIn} (hr : CtlTraced m x evs) (ha : x.a = .hystart h) (hl : CtlLegal m x.h e)
    (hs : x.step e = .ok (x', ss)) (hlv : ss.leave = true) : ∃ tr seg old, Shows (e :: evs) tr ∧ tr = seg ++ old ∧ Raised old ∧ Trips 4 seg := by
  obtain ⟨tr, ht⟩ := hr.told ha
  obtain ⟨h', tr', k1, k2, k3⟩ := ht.step ha hl hs
  obtain ⟨e', l1, l2, l3⟩ := k3 hlv
  obtain ⟨seg, old, q1, q2, q3⟩ := C99_leaves_after_four_trips ht.reached l2 l3
  exact ⟨tr', seg, old, k2.shows, by rw [l1]; exact q1, q2, q3⟩

/-! ## Examples -/

/-- Make calls that are checked to be legal; also if slow start was left. -/
def CtlHist.run (m : Nat) : CtlHist → List CtlEv → Option (CtlHist × List Bool)
  | x, [] => some (x, [])
  | x, e :: es => if CtlLegal m x.h e then
      match x.step e with
      | .error _ => none
      | .ok (y, ss) => (CtlHist.run m y es).map fun r => (r.1, ss.leave :: r.2)
    else none

theorem CtlTraced.run {m : Nat} : ∀ {es : List CtlEv} {x y : CtlHist} {evs : List CtlEv} {bs : List Bool}, CtlTraced m x evs → x.run m es = some (y, bs) → CtlTraced m y (es.reverse ++ evs) := by
  intro es
  induction es with
  | nil => intro x y evs bs hr h; injection h with h; injection h with h _; exact h ▸ hr
  | cons e es ih =>
    intro x y evs bs hr h
    unfold CtlHist.run at h
    split at h
    · rename_i hl
      split at h
      · cases h
      · rename_i y' ss hs
        obtain ⟨r, h1, h2⟩ := Option.map_eq_some_iff.mp h
        have := ih (.step hr hl hs) (bs := r.2) (y := y) (by rw [h1]; injection h2 with h2 _; rw [← h2])
        rw [List.reverse_cons, List.append_assoc]
        exact this
    · cases h

/-- A round: ten packets, the first numbered `10 * k`, that fill the window, are sent and acknowledged. -/
def exCtlRound (k rtt : Nat) : List CtlEv :=
  (List.range 10).map (fun i => .sent (exCc (10 * k + i) (1200 * 2 ^ k))) ++
    (List.range 10).map (fun i => .acked [exCc (10 * k + i) (1200 * 2 ^ k)] 1000000000 1000000000 rtt 1)

def exCtlNew (a : Algo) : CtlHist := { h := .new .reno 1200 true, a := a }
def exCtlEvs : List CtlEv := exCtlRound 0 20000000 ++ (List.range 9).flatMap fun k => exCtlRound (k + 1) 30000000

/-- The delay has gone up: HyStart++ leaves slow start, classic slow start does not. -/
example : ((exCtlNew (.hystart exNew)).run 1200 exCtlEvs).map (fun r => (r.1.h.c.cur.phase, r.2.findIdx? (· = true))) = some (.congAvoid, some 130) := by decide +kernel
example : ((exCtlNew .classic).run 1200 exCtlEvs).map (fun r => (r.1.h.c.cur.phase, r.2.findIdx? (· = true))) = some (.slowStart, none) := by decide +kernel
/-- Persistent congestion, and a late acknowledgement after it. -/
example : ((exCtlNew (.hystart exNew)).run 1200 (exCtlEvs.take 70 ++ [.lost (some 0) none 1 [exCc 35 9600, exCc 36 9600, exCc 37 9600, exCc 38 9600, exCc 39 9600]])).map
    (fun r => (r.1.h.c.cur.phase, r.1.h.c.cur.cwnd)) = some (.persistent, 2400) := by decide +kernel
example : ((exCtlNew (.hystart exNew)).run 1200 (exCtlEvs.take 70 ++ [.lost (some 0) none 1 [exCc 35 9600, exCc 36 9600, exCc 37 9600, exCc 38 9600, exCc 39 9600],
    .acked [exCc 34 9600] 1000000000 1000000000 40000000 1])).map (fun r => (r.1.h.c.cur.phase, r.2.any (· = true))) = some (.persistent, false) := by decide +kernel

end Neqo.Ss
