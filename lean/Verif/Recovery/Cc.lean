import Verif.Recovery.Packet

/-!
# Model of the congestion controller, `neqo-transport/src/cc/classic_cc.rs`

Sizes are `Nat` (no overflow of `usize`).  Logging and statistics are left out.

* The slow start algorithm (classic, HyStart++ or SEARCH) is represented by what it answers for an ACK: if
  it wants to leave slow start, the cap it puts on the bytes that count, and if it is in the conservative
  phase.  All three leave slow start with the current window (classic_slow_start.rs:31-42,
  hystart.rs:338-346, search.rs:280-306).
* The number of bytes that must be acknowledged for CUBIC to grow the window by a datagram is computed in
  floating point (cubic.rs:276-399); here it is an input.
* Path MTU discovery is represented by its result, the current MTU.
-/
namespace Neqo.Rec

/-- `Phase` (classic_cc.rs:33-51). -/
inductive Phase where
  | slowStart | congAvoid | recoveryStart | recovery | persistent
  deriving Repr, DecidableEq

/-- `in_recovery` (classic_cc.rs:54-56). -/
def Phase.inRecovery : Phase → Bool
  | .recoveryStart => true
  | .recovery => true
  | _ => false

/-- `transient` (classic_cc.rs:63-65). -/
def Phase.transient : Phase → Bool
  | .recoveryStart => true
  | .persistent => true
  | _ => false

/-- `update` (classic_cc.rs:68-74), only used on transient phases. -/
def Phase.update : Phase → Phase
  | .persistent => .slowStart
  | .recoveryStart => .recovery
  | p => p

/-- The window adjustment: `NewReno` or `Cubic`. -/
inductive Alg where
  | reno | cubic
  deriving Repr, DecidableEq

/-- `State` (classic_cc.rs:154-162). -/
structure CcSt where
  phase : Phase := .slowStart
  cwnd : Nat
  acked : Nat := 0
  ssthresh : Option Nat := none
  recStart : Option Nat := none
  deriving Repr, DecidableEq

/-- `ClassicCongestionController` (classic_cc.rs:187-219).  `maybeLost` holds type, number and time sent. -/
structure Cc where
  cur : CcSt
  flight : Nat := 0
  maybeLost : List (PType × Nat × Nat) := []
  firstLimited : Option Nat := none
  mtu : Nat
  stored : Option CcSt := none
  spurious : Bool := true
  alg : Alg
  deriving Repr, DecidableEq

/-- `cwnd_initial` (classic_cc.rs:614-616). -/
def cwndInitial (mtu : Nat) : Nat := Nat.min (10 * mtu) (Nat.max (2 * mtu) 14720)

/-- `ClassicCongestionController::new` (classic_cc.rs:623-642). -/
def Cc.new (alg : Alg) (mtu : Nat) (spurious : Bool) : Cc :=
  { cur := { cwnd := cwndInitial mtu }, mtu := mtu, spurious := spurious, alg := alg }

/-- `cwnd_avail` (classic_cc.rs:260-266). -/
def Cc.avail (c : Cc) : Nat := c.cur.cwnd - c.flight

/-- `cwnd_min` (classic_cc.rs:268-270). -/
def Cc.min (c : Cc) : Nat := c.mtu * 2

/-- `after_recovery_start` (classic_cc.rs:868-880). -/
def Cc.afterRecovery (c : Cc) (p : Pkt) : Bool :=
  !c.cur.phase.transient && c.cur.recStart.all (fun pn => decide (p.pn ≥ pn))

/-- `app_limited` (classic_cc.rs:957-971), with `PACING_BURST_SIZE` = 2. -/
def Cc.appLimited (c : Cc) : Bool :=
  if c.flight ≥ c.cur.cwnd then false
  else if c.cur.phase = .slowStart then decide (c.flight < c.cur.cwnd / 2)
  else decide (c.flight + c.mtu * 2 < c.cur.cwnd)

/-- What starting a transmission does to a transient phase (classic_cc.rs:571-575). -/
def CcSt.exitTransient (s : CcSt) (pn : Nat) : CcSt :=
  if s.phase.transient then { s with recStart := some pn, phase := s.phase.update } else s

/-- `on_packet_sent` (classic_cc.rs:570-606). -/
def Cc.onSent (c : Cc) (p : Pkt) : Cc :=
  let c := { c with cur := c.cur.exitTransient p.pn }
  if p.inFlight then
    let c := if c.appLimited then c else { c with firstLimited := some (p.pn + 1) }
    { c with flight := c.flight + p.len }
  else c

/-- `reduce_cwnd` (new_reno.rs:41-50, cubic.rs:421-470). -/
def Alg.reduce (a : Alg) (ecn : Bool) (x : Nat) : Nat :=
  match a with
  | .reno => x / 2
  | .cubic => x * (if ecn then 85 else 70) / 100

/-- `on_congestion_event` (classic_cc.rs:884-955). -/
def Cc.congestion (c : Cc) (p : Pkt) (ecn : Bool) : Cc × Bool :=
  if c.afterRecovery p then
    let w := Nat.max (c.alg.reduce ecn c.cur.cwnd) c.min
    ({ c with stored := if ecn then c.stored else some c.cur, cur := { c.cur with cwnd := w, acked := c.alg.reduce ecn c.cur.acked, ssthresh := some w, phase := .recoveryStart } }, true)
  else (c, false)

/-- `on_ecn_ce_received` (classic_cc.rs:539-546). -/
def Cc.onCe (c : Cc) (p : Pkt) : Cc := (c.congestion p true).1

/-- The maximum of two optional times, `None` being the least. -/
def optMax : Option Nat → Option Nat → Option Nat
  | none, b => b
  | a, none => a
  | some a, some b => some (Nat.max a b)

/-- The loop of `detect_persistent_congestion` (classic_cc.rs:796-846): true if a long enough stretch of
lost packets is found.  `last` is the number of the packet before, `start` the time the stretch began. -/
def persistLoop (period : Nat) : Option Nat → Option Nat → List Pkt → Except Err Bool
  | _, _, [] => .ok false
  | last, start, p :: ps =>
    let start := if last = some (p.pn - 1) ∧ p.pn ≠ 0 then start else none
    if p.inFlight then
      match start with
      | some t =>
        if p.sent < t then .error .panic
        else if p.sent - t > period then .ok true
        else persistLoop period (some p.pn) start ps
      | none => persistLoop period (some p.pn) (some p.sent) ps
    else persistLoop period (some p.pn) start ps

/-- `detect_persistent_congestion` (classic_cc.rs:792-865). -/
def Cc.persistent (c : Cc) (first prevLargest : Option Nat) (pto : Nat) (lost : List Pkt) : Except Err Cc :=
  match first with
  | none => .ok c
  | some f =>
    let cutoff := (optMax (some f) prevLargest).getD 0
    match persistLoop (pto * 3) none none (lost.dropWhile fun p => decide (p.sent < cutoff)) with
    | .error e => .error e
    | .ok false => .ok c
    | .ok true => .ok { c with cur := { c.cur with cwnd := c.min, acked := 0, phase := .persistent } }

/-- One lost packet (classic_cc.rs:453-483): take it out of flight, and remember it in case an
acknowledgement comes late. -/
def Cc.lostOne (c : Cc) (p : Pkt) : Except Err Cc :=
  if p.inFlight then
    let c := { c with flight := c.flight - p.len }
    if p.pmtud then .ok c
    else if c.maybeLost.any (fun e => decide (e.1 = p.pt ∧ e.2.1 = p.pn)) then .error .panic
    else .ok { c with maybeLost := (p.pt, p.pn, p.sent) :: c.maybeLost }
  else .ok c

/-- The loop over lost packets. -/
def Cc.lostAll : Cc → List Pkt → Except Err Cc
  | c, [] => .ok c
  | c, p :: ps =>
    match c.lostOne p with
    | .error e => .error e
    | .ok c => c.lostAll ps

/-- `on_packets_lost` (classic_cc.rs:447-533). -/
def Cc.onLost (c : Cc) (first prevLargest : Option Nat) (pto : Nat) (lost : List Pkt) : Except Err Cc :=
  match c.lostAll lost with
  | .error e => .error e
  | .ok c =>
    let noProbe := lost.filter fun p => !p.pmtud
    match (noProbe.filter (·.inFlight)).getLast? with
    | none => .ok c
    | some last => (c.congestion last false).1.persistent first prevLargest pto noProbe

/-- `cleanup_maybe_lost_packets` (classic_cc.rs:738-751). -/
def Cc.cleanup (c : Cc) (now pto : Nat) : Cc :=
  { c with maybeLost := c.maybeLost.filter fun e => decide (now - e.2.2 ≤ pto * 2) }

/-- `on_spurious_congestion_event` (classic_cc.rs:753-790). -/
def Cc.onSpurious (c : Cc) : Cc :=
  match c.stored with
  | none => c
  | some st =>
    if st.cwnd ≤ c.cur.cwnd ∨ c.spurious = false then { c with stored := none }
    else { c with stored := none, cur := st }

/-- `detect_spurious_congestion_event` (classic_cc.rs:703-734). -/
def Cc.detectSpurious (c : Cc) (acked : List Pkt) : Cc :=
  if c.maybeLost = [] then c
  else
    let rest := c.maybeLost.filter fun e => !acked.any (fun p => decide (p.pt = e.1 ∧ p.pn = e.2.1))
    let c := { c with maybeLost := rest }
    if rest = [] then c.onSpurious else c

/-- What the slow start algorithm answers for an ACK. -/
structure SsIn where
  leave : Bool := false
  cap : Option Nat := none
  css : Bool := false
  deriving Repr, DecidableEq

/-- `calc_cwnd_increase` (classic_cc.rs:138-140, hystart.rs:349-373). -/
def SsIn.increase (s : SsIn) (mtu new : Nat) : Nat :=
  let m := match s.cap with
    | none => new
    | some l => Nat.min (l * mtu) new
  if s.css then m / 4 else m

/-- One acknowledged packet (classic_cc.rs:307-338): the controller, if the window is still thought to be
limited by the application, and the bytes that count for growth. -/
def Cc.ackOne (c : Cc) (limited : Bool) (new : Nat) (p : Pkt) : Cc × Bool × Nat :=
  if p.outstanding then
    let limited := limited && !(c.firstLimited.any fun f => decide (p.pn < f))
    let c := { c with flight := c.flight - p.len }
    if c.afterRecovery p then
      (if c.cur.phase.inRecovery then { c with cur := { c.cur with phase := .congAvoid } } else c, limited, new + p.len)
    else (c, limited, new)
  else (c, limited, new)

/-- The loop over acknowledged packets. -/
def Cc.ackLoop : Cc → Bool → Nat → List Pkt → Cc × Bool × Nat
  | c, l, n, [] => (c, l, n)
  | c, l, n, p :: ps =>
    let r := c.ackOne l n p
    Cc.ackLoop r.1 r.2.1 r.2.2 ps

/-- Growth in slow start (classic_cc.rs:358-404). -/
def Cc.growSlow (c : Cc) (ss : SsIn) (new : Nat) : Cc :=
  if c.cur.ssthresh.all (fun s => decide (c.cur.cwnd < s)) then
    if ss.leave then { c with cur := { c.cur with ssthresh := some c.cur.cwnd, phase := .congAvoid } }
    else
      let w := c.cur.cwnd + ss.increase c.mtu new
      match c.cur.ssthresh with
      | none => { c with cur := { c.cur with cwnd := w } }
      | some s =>
        if w ≥ s then { c with cur := { c.cur with cwnd := s, phase := .congAvoid } }
        else { c with cur := { c.cur with cwnd := w } }
  else c

/-- `bytes_for_cwnd_increase` (new_reno.rs:30-39; for CUBIC the input). -/
def Cc.bytesFor (c : Cc) (bfi : Nat) : Nat :=
  match c.alg with
  | .reno => c.cur.cwnd
  | .cubic => bfi

/-- Growth in congestion avoidance (classic_cc.rs:407-430). -/
def Cc.growAvoid (c : Cc) (bfi new : Nat) : Except Err Cc :=
  if c.cur.ssthresh.any (fun s => decide (c.cur.cwnd ≥ s)) then
    let b := c.bytesFor bfi
    if b = 0 then .error .panic
    else
      let a := Nat.min c.cur.acked b + new
      .ok { c with cur := { c.cur with acked := a % b, cwnd := c.cur.cwnd + a / b * c.mtu } }
  else .ok c

/-- `on_packets_acked` (classic_cc.rs:284-433).  `ptoTrue` is `rtt_est.pto(true)`. -/
def Cc.onAcked (c : Cc) (acked : List Pkt) (now ptoTrue : Nat) (ss : SsIn) (bfi : Nat) : Except Err Cc :=
  let c := (c.cleanup now ptoTrue).detectSpurious acked
  let r := c.ackLoop true 0 acked
  if r.2.1 then .ok r.1
  else (r.1.growSlow ss r.2.2).growAvoid bfi r.2.2

/-- `discard` (classic_cc.rs:548-559). -/
def Cc.discard (c : Cc) (p : Pkt) : Except Err Cc :=
  if p.outstanding then
    if c.flight ≥ p.len then .ok { c with flight := c.flight - p.len } else .error .panic
  else .ok c

end Neqo.Rec
