import Verif.Recovery.CcHist

/-!
# Slow start: HyStart++ and SEARCH

`neqo-transport/src/cc/classic_slow_start.rs`, `hystart.rs` and `search.rs`, and their use by the congestion
controller (`classic_cc.rs`).  Times and durations are natural numbers of nanoseconds, counters do not overflow;
logging and statistics are left out, apart from the two estimates that SEARCH records.
-/
namespace Neqo.Ss
open Neqo.Rec

/-! ## HyStart++ -/

/-- `HyStartCssBaseline` (hystart.rs:22-34). -/
inductive Baseline where
  | currentRound | entryThreshold
  deriving DecidableEq, Repr

/-- `HyStart` (hystart.rs:37-56).  `paced` stands for `limit`, which is `usize::MAX` or 8 (hystart.rs:80-84). -/
structure Hy where
  paced : Bool
  mode : Baseline
  last : Option Nat := none
  cur : Option Nat := none
  samples : Nat := 0
  windowEnd : Option Nat := none
  css : Option Nat := none
  rounds : Nat := 0
  deriving DecidableEq, Repr

namespace Hy

/-- `collect_rtt_sample` (hystart.rs:105-111). -/
def collect (h : Hy) (rtt : Nat) : Hy :=
  { h with cur := some (match h.cur with | some c => min c rtt | none => rtt), samples := h.samples + 1 }

/-- `start_next_round` (hystart.rs:131-140). -/
def nextRound (h : Hy) : Hy := { h with windowEnd := none, last := h.cur, cur := none, samples := 0 }

/-- `on_packet_sent` with `maybe_set_window_end` (hystart.rs:193-195, 146-155). -/
def onSent (h : Hy) (pn : Nat) : Hy :=
  match h.windowEnd with
  | some _ => h
  | none => { h with windowEnd := some pn }

/-- `reset` (hystart.rs:197-204). -/
def reset (h : Hy) : Hy := { paced := h.paced, mode := h.mode }

/-- The increase of the round-trip time that counts (hystart.rs:259-262): an eighth, at least 4 ms, at most 16 ms. -/
def thresh (last : Nat) : Nat := max 4000000 (min (last / 8) 16000000)

/-- The two checks of the round-trip time (hystart.rs:254-298). -/
def check (h : Hy) : Hy :=
  if h.css.isNone = true ∧ 8 ≤ h.samples then
    match h.cur, h.last with
    | some c, some l =>
      if l + thresh l ≤ c then
        { h with samples := 0, css := some (match h.mode with | .currentRound => c | .entryThreshold => l + thresh l) }
      else h
    | _, _ => h
  else if 8 ≤ h.samples then
    match h.cur, h.css with
    | some c, some b => if c < b then { h with css := none, rounds := 0 } else h
    | _, _ => h
  else h

/-- `on_packets_acked` (hystart.rs:228-340).  True if slow start is to be left, which is with the current window. -/
def onAcked (h : Hy) (rtt largest : Nat) : Hy × Bool :=
  let h := (h.collect rtt).check
  match h.windowEnd with
  | none => (h, false)
  | some w =>
    if largest < w then (h, false)
    else
      let h := h.nextRound
      if h.css.isNone then (h, false)
      else ({ h with rounds := h.rounds + 1 }, decide (5 ≤ h.rounds + 1))

end Hy

/-! ## SEARCH -/

/-- A circular array, as a function of the position. -/
abbrev Ring := Nat → Nat

/-- Set one position. -/
def Ring.set (r : Ring) (i v : Nat) : Ring := fun k => if k = i then v else r k

/-- `NUM_ACKED_BINS` (search.rs:82). -/
def nAcked : Nat := 11
/-- `NUM_SENT_BINS` (search.rs:84). -/
def nSent : Nat := 26

/-- `Search` (search.rs:43-60). -/
structure Search where
  ackedBins : Ring := fun _ => 0
  sentBins : Ring := fun _ => 0
  idx : Option Nat := none
  binEnd : Option Nat := none
  dur : Nat := 0
  acked : Nat := 0
  sent : Nat := 0
  initialRtt : Option Nat := none

namespace Search

/-- `initialize` (search.rs:110-128).  The panic is a `debug_assert!`. -/
def start (s : Search) (rtt now : Nat) : Except Err Search :=
  let dur := rtt * 350 / 100 / 10
  if dur = 0 then .error .panic
  else
    .ok { s with initialRtt := some rtt, dur := dur, binEnd := some (now + dur), ackedBins := s.ackedBins.set 0 s.acked, sentBins := s.sentBins.set 0 s.sent
                 idx := some 0 }

/-- The loop that fills skipped bins (search.rs:175-180), for one of the arrays, of length `n`; `k` bins after `cur`. -/
def fill (n : Nat) (r : Ring) (cur : Nat) : Nat → Ring
  | 0 => r
  | k + 1 => (fill n r cur k).set ((cur + k + 1) % n) (fill n r cur k (cur % n))

/-- `reset` (search.rs:453-460). -/
def reset (s : Search) : Search := { s with idx := none, acked := 0, sent := 0 }

/-- `update_bins` (search.rs:137-197).  The division panics if `bin_duration` is zero. -/
def updateBins (s : Search) (now : Nat) : Except Err (Search × Option Nat) :=
  match s.idx, s.binEnd with
  | some cur, some e =>
    if s.dur = 0 then .error .panic
    else
      let passed := (now - e) / s.dur + 1
      if 10 < passed then .ok (s.reset, none)
      else
        .ok ({ s with ackedBins := (fill nAcked s.ackedBins cur (passed - 1)).set ((cur + passed) % nAcked) s.acked
                      sentBins := (fill nSent s.sentBins cur (passed - 1)).set ((cur + passed) % nSent) s.sent
                      idx := some (cur + passed), binEnd := some (e + s.dur * passed) }, some (cur + passed))
  | _, _ => .ok (s, none)

/-- `compute_delv` (search.rs:217-220). -/
def delv (s : Search) (old new : Nat) : Nat := s.ackedBins (new % nAcked) - s.ackedBins (old % nAcked)

/-- `compute_sent` (search.rs:225-235).  The panic is the overflow of a subtraction. -/
def sentIn (s : Search) (old new fraction : Nat) : Except Err Nat :=
  if new = 0 ∨ old = 0 ∨ 100 < fraction then .error .panic
  else
    let low := s.sentBins ((new - 1) % nSent) - s.sentBins ((old - 1) % nSent)
    let high := s.sentBins (new % nSent) - s.sentBins (old % nSent)
    .ok ((low * fraction + high * (100 - fraction)) / 100)

/-- `evaluate` with `calc_prev_idx` (search.rs:205-214, 241-282), true for `Exit`. -/
def evaluate (s : Search) (rtt cur : Nat) : Except Err Bool :=
  let prev := cur - rtt / s.dur
  let fraction := rtt % s.dur * 100 / s.dur
  if prev ≤ 10 then .ok false
  else if 15 ≤ cur - prev then .ok false
  else
    match s.sentIn (prev - 10) prev fraction with
    | .error e => .error e
    | .ok p =>
      if p = 0 then .ok false
      else .ok (decide (26 ≤ (p - s.delv (cur - 10) cur) * 100 / p))

/-- `on_packets_acked` (search.rs:376-443). -/
def onAcked (s : Search) (rtt now : Nat) : Except Err (Search × Bool) := do
  let s ← if s.idx.isNone then s.start rtt now else .ok s
  if s.binEnd.any (fun e => decide (now ≤ e)) then .ok (s, false)
  else
    match ← s.updateBins now with
    | (s, none) => .ok (s, false)
    | (s, some cur) => .ok (s, ← s.evaluate rtt cur)

/-- `rtt_to_bins` (search.rs:285-289). -/
def rttBins (s : Search) (rtt : Nat) : Nat := (rtt + s.dur - 1) / s.dur

/-- `record_target_cwnd_estimates` (search.rs:298-323): the two estimates. -/
def targets (s : Search) (cur rtt : Nat) : Option Nat × Option Nat :=
  match s.initialRtt with
  | none => (none, none)
  | some i => (some (s.delv (cur - s.rttBins i) cur), if s.rttBins rtt ≤ 10 then some (s.delv (cur - s.rttBins rtt) cur) else none)

/-- `record_acked_bytes` (search.rs:445-447). -/
def recordAcked (s : Search) (n : Nat) : Search := { s with acked := s.acked + n }

/-- `on_packet_sent` (search.rs:449-451). -/
def onSent (s : Search) (n : Nat) : Search := { s with sent := s.sent + n }

end Search

/-! ## Their use -/

/-- The slow start algorithm (`S: SlowStart` of `ClassicCongestionController`, classic_cc.rs:187-188). -/
inductive Algo where
  | classic
  | hystart (h : Hy)
  | search (s : Search)

namespace Algo

/-- `SlowStart::on_packet_sent`. -/
def onSent (a : Algo) (pn len : Nat) : Algo :=
  match a with
  | .classic => .classic
  | .hystart h => .hystart (h.onSent pn)
  | .search s => .search (s.onSent len)

/-- `SlowStart::record_acked_bytes` (classic_cc.rs:123). -/
def recordAcked (a : Algo) (n : Nat) : Algo :=
  match a with
  | .search s => .search (s.recordAcked n)
  | a => a

/-- `SlowStart::on_packets_acked`; classic slow start is never left (classic_slow_start.rs:31-42). -/
def onAcked (a : Algo) (rtt largest now : Nat) : Except Err (Algo × Bool) :=
  match a with
  | .classic => .ok (.classic, false)
  | .hystart h => .ok (.hystart (h.onAcked rtt largest).1, (h.onAcked rtt largest).2)
  | .search s => do
    let r ← s.onAcked rtt now
    .ok (.search r.1, r.2)

/-- `SlowStart::reset`. -/
def reset (a : Algo) : Algo :=
  match a with
  | .classic => .classic
  | .hystart h => .hystart h.reset
  | .search s => .search s.reset

/-- What the window grows by is limited by (`calc_cwnd_increase`, classic_cc.rs:138-140, hystart.rs:342-365). -/
def answer (a : Algo) (leave : Bool) : SsIn :=
  match a with
  | .hystart h => { leave := leave, cap := if h.paced then none else some 8, css := h.css.isSome }
  | _ => { leave := leave }

end Algo

/-- A congestion controller with its slow start algorithm. -/
structure Ctl where
  c : Cc
  a : Algo

namespace Ctl

/-- `on_packet_sent` (classic_cc.rs:570-606). -/
def onSent (x : Ctl) (p : Pkt) : Ctl :=
  { c := x.c.onSent p, a := if p.inFlight ∧ (x.c.cur.exitTransient p.pn).phase = .slowStart then x.a.onSent p.pn p.len else x.a }

/-- What slow start answers to an acknowledgement, and its state after that (classic_cc.rs:335-336, 340-369); `c` is the controller
after the loop over the packets, `limited` if the window was not used, `new` the bytes that count. -/
def ask (a : Algo) (c : Cc) (limited : Bool) (new rtt largest now : Nat) : Except Err (Algo × SsIn) :=
  let a := if c.cur.phase = .slowStart then a.recordAcked new else a
  if limited = false ∧ c.cur.ssthresh.all (fun s => decide (c.cur.cwnd < s)) = true then do
    let r ← a.onAcked rtt largest now
    .ok (r.1, r.1.answer r.2)
  else .ok (a, {})

/-- `on_packets_acked` (classic_cc.rs:284-444).  `rtt` is the latest round-trip time.  The panic is `expect` on the first packet. -/
def onAcked (x : Ctl) (acked : List Pkt) (now ptoTrue rtt bfi : Nat) : Except Err (Ctl × SsIn) :=
  match acked with
  | [] => .error .panic
  | p :: _ => do
    let r := ((x.c.cleanup now ptoTrue).detectSpurious acked).ackLoop true 0 acked
    let q ← ask x.a r.1 r.2.1 r.2.2 rtt p.pn now
    let c ← x.c.onAcked acked now ptoTrue q.2 bfi
    .ok ({ c := c, a := q.1 }, q.2)

/-- If `detect_persistent_congestion` finds it (classic_cc.rs:792-865). -/
def persists (first prevLargest : Option Nat) (pto : Nat) (lost : List Pkt) : Except Err Bool :=
  match first with
  | none => .ok false
  | some f => persistLoop (pto * 3) none none (lost.dropWhile fun p => decide (p.sent < (optMax (some f) prevLargest).getD 0))

/-- `on_packets_lost` (classic_cc.rs:447-533) with `reset` (classic_cc.rs:843). -/
def onLost (x : Ctl) (first prevLargest : Option Nat) (pto : Nat) (lost : List Pkt) : Except Err Ctl := do
  let c ← x.c.onLost first prevLargest pto lost
  match ((lost.filter fun p => !p.pmtud).filter (·.inFlight)).getLast? with
  | none => .ok { x with c := c }
  | some _ => do
    let b ← persists first prevLargest pto (lost.filter fun p => !p.pmtud)
    .ok { c := c, a := if b then x.a.reset else x.a }

end Ctl

end Neqo.Ss
