import Verif.Lib.Basic

/-!
# Asking the peer for fewer acknowledgments: `neqo-transport/src/ackrate.rs`

Times are in nanoseconds.
-/
namespace Neqo.AckRate

/-- A panic. -/
inductive Panic where
  | clamp
  deriving Repr, DecidableEq

/-- `struct AckRate` (ackrate.rs:22-28). -/
structure Rate where
  packets : Nat
  delay : Nat
  deriving Repr, DecidableEq

/-- `Ord::clamp`, which panics if the bounds are in the wrong order. -/
def clamp (v lo hi : Nat) : Except Panic Nat :=
  if hi < lo then .error .clamp else .ok (max lo (min v hi))

/-- `AckRate::new` (ackrate.rs:31-46); `ACK_RATIO_SCALE` is 10 (connection/params.rs).  The MTU is
never 0 (the division would panic). -/
def Rate.new (minimum ratio cwnd mtu rtt : Nat) : Except Panic Rate := do
  let packets ← clamp (cwnd * 10 / mtu / ratio) 2 256
  let delay ← clamp (rtt * 10 / ratio) minimum 50000000
  return ⟨packets - 1, delay⟩

/-- `AckRate::needs_update` (ackrate.rs:59-67). -/
def Rate.needsUpdate (r target : Rate) : Bool :=
  if r.packets != target.packets then true
  else decide (target.delay + target.delay / 4 < r.delay ∨ r.delay + target.delay / 4 < target.delay)

/-- `struct FlexibleAckRate` (ackrate.rs:73-80). -/
structure Flex where
  current : Rate
  target : Rate
  seqno : Nat
  outstanding : Bool
  min : Nat
  ratio : Nat
  deriving Repr, DecidableEq

/-- `FlexibleAckRate::new` (ackrate.rs:81-102). -/
def Flex.new (maxDelay minDelay ratio cwnd mtu rtt : Nat) : Except Panic Flex := do
  let target ← Rate.new minDelay (max 10 ratio) cwnd mtu rtt
  return { current := ⟨1, maxDelay⟩, target, seqno := 0, outstanding := false, min := minDelay, ratio := max 10 ratio }

/-- The fields of an ACK_FREQUENCY frame (`AckRate::write_frame`, ackrate.rs:48-56): how it is written is
in `Verif.Frames` (C60). -/
structure Frame where
  seqno : Nat
  tolerance : Nat
  delayMicros : Nat
  deriving Repr, DecidableEq

def Rate.frame (r : Rate) (seqno : Nat) : Frame := ⟨seqno, r.packets + 1, r.delay / 1000⟩

/-- `FlexibleAckRate::write_frames` (ackrate.rs:104-120); `room` says whether the frame fits. -/
def Flex.write (f : Flex) (room : Bool) : Flex × Option Frame :=
  if !f.outstanding && f.current.needsUpdate f.target && room then
    ({ f with outstanding := true, seqno := f.seqno + 1 }, some (f.target.frame f.seqno))
  else (f, none)

/-- `FlexibleAckRate::frame_acked` (ackrate.rs:122-125). -/
def Flex.acked (f : Flex) (r : Rate) : Flex := { f with outstanding := false, current := r }

/-- `FlexibleAckRate::frame_lost` (ackrate.rs:127-129). -/
def Flex.lost (f : Flex) : Flex := { f with outstanding := false }

/-- `FlexibleAckRate::update` (ackrate.rs:131-134). -/
def Flex.update (f : Flex) (cwnd mtu rtt : Nat) : Except Panic Flex := do
  let target ← Rate.new f.min f.ratio cwnd mtu rtt
  return { f with target }

/-- `FlexibleAckRate::peer_ack_delay` (ackrate.rs:136-138), which is used for probe timeouts
(`RttEstimate::pto`, rtt.rs:158-164). -/
def Flex.peerDelay (f : Flex) : Nat := max f.current.delay f.target.delay

/-- What `Connection::process_tps` does with the delays of the peer (connection/mod.rs:3122-3133), the
smallest in microseconds, the largest in milliseconds; `none` is a transport parameter error. -/
def processTps (maxMs : Nat) (minUs : Option Nat) (ratio cwnd mtu rtt : Nat) : Except Panic (Option (Option Flex)) :=
  match minUs with
  | none => .ok (some none)
  | some m =>
    if maxMs * 1000000 < m * 1000 then .ok none
    else (Flex.new (maxMs * 1000000) (m * 1000) ratio cwnd mtu rtt).map fun f => some (some f)

/-! ## Histories on one path -/

/-- The frame on its way. -/
structure Flight where
  rate : Rate
  arrived : Bool
  deriving Repr, DecidableEq

/-- The sender, the frame that is neither acknowledged nor lost, the frames sent, and the delay that
the peer uses (rounding to microseconds is ignored; it only makes this shorter). -/
structure W where
  f : Flex
  flight : Option Flight
  frames : List Frame
  peer : Nat
  deriving Repr, DecidableEq

/-- What happens: the window changes, a packet is written, the frame arrives, its acknowledgment
arrives, or it is found to be lost, which is true (if it did not arrive) or not. -/
inductive Op where
  | update (cwnd mtu rtt : Nat)
  | write (room : Bool)
  | arrive
  | acked
  | lost
  deriving Repr, DecidableEq

def step (w : W) : Op → Except Panic W
  | .update c m r => do
    let f ← w.f.update c m r
    return { w with f }
  | .write room =>
    match w.f.write room with
    | (f, some fr) => .ok { w with f, flight := some ⟨w.f.target, false⟩, frames := w.frames ++ [fr] }
    | (f, none) => .ok { w with f }
  | .arrive =>
    match w.flight with
    | some fl => .ok { w with flight := some { fl with arrived := true }, peer := fl.rate.delay }
    | none => .ok w
  | .acked =>
    match w.flight with
    | some ⟨r, true⟩ => .ok { w with f := w.f.acked r, flight := none }
    | _ => .ok w
  | .lost =>
    match w.flight with
    | some _ => .ok { w with f := w.f.lost, flight := none }
    | none => .ok w

def run (w : W) : List Op → Except Panic W
  | [] => .ok w
  | op :: ops => do
    let w ← step w op
    run w ops

/-- The start, with the transport parameters of the peer in nanoseconds. -/
def start (maxDelay : Nat) (f : Flex) : W := ⟨f, none, [], maxDelay⟩

/-! ## Specification -/

/-- A frame that may be sent to a peer with this smallest delay: it asks for an acknowledgment of at
least every 256th packet, and within 50 ms. -/
def Sane (minDelay : Nat) (f : Frame) : Prop :=
  2 ≤ f.tolerance ∧ f.tolerance ≤ 256 ∧ minDelay / 1000 ≤ f.delayMicros ∧ f.delayMicros ≤ 50000

/-- The window does not change while a frame is on its way, and only frames that did not arrive
are declared lost. -/
def Calm : W → List Op → Prop
  | _, [] => True
  | w, op :: ops => (match op with
    | .update .. => w.flight = none
    | .lost => ∀ r, w.flight ≠ some ⟨r, true⟩
    | _ => True) ∧ ∀ w', step w op = .ok w' → Calm w' ops

/-! ## Lemmas -/

theorem clamp_ok {v lo hi : Nat} (h : lo ≤ hi) : clamp v lo hi = .ok (max lo (min v hi)) := by
  unfold clamp; rw [if_neg (by omega)]

/-- A rate as it is asked for. -/
structure Good (minimum ratio cwnd mtu rtt : Nat) (r : Rate) : Prop where
  packets : 1 ≤ r.packets ∧ r.packets ≤ 255
  delay : minimum ≤ r.delay ∧ r.delay ≤ 50000000
  often : r.packets + 1 ≤ max 2 (cwnd * 10 / mtu / ratio)
  soon : r.delay ≤ max minimum (rtt * 10 / ratio)

theorem new_ok {minimum : Nat} (h : minimum ≤ 50000000) (ratio cwnd mtu rtt : Nat) :
    ∃ r, Rate.new minimum ratio cwnd mtu rtt = .ok r ∧ Good minimum ratio cwnd mtu rtt r := by
  unfold Rate.new
  rw [clamp_ok (by omega), clamp_ok h]
  refine ⟨_, rfl, ?_, ?_, ?_, ?_⟩ <;> dsimp only <;> omega

theorem new_panics {minimum : Nat} (h : 50000000 < minimum) (ratio cwnd mtu rtt : Nat) :
    Rate.new minimum ratio cwnd mtu rtt = .error .clamp := by
  unfold Rate.new
  rw [clamp_ok (by omega)]
  unfold clamp
  rw [if_pos h]
  rfl

/-- What always holds. -/
structure Inv (minDelay ratio : Nat) (w : W) : Prop where
  min : w.f.min = minDelay
  ratio : w.f.ratio = max 10 ratio
  target : 1 ≤ w.f.target.packets ∧ w.f.target.packets ≤ 255 ∧ minDelay ≤ w.f.target.delay ∧ w.f.target.delay ≤ 50000000
  sane : ∀ fr ∈ w.frames, Sane minDelay fr
  seq : w.frames.map (·.seqno) = List.range w.f.seqno
  one : w.f.outstanding = w.flight.isSome

theorem write_cases (f : Flex) (room : Bool) :
    (f.write room = ({ f with outstanding := true, seqno := f.seqno + 1 }, some (f.target.frame f.seqno)) ∧
      f.outstanding = false ∧ f.current.needsUpdate f.target = true) ∨ f.write room = (f, none) := by
  unfold Flex.write
  by_cases h : (!f.outstanding && f.current.needsUpdate f.target && room) = true
  · rw [if_pos h]
    simp only [Bool.and_eq_true, Bool.not_eq_true'] at h
    exact .inl ⟨rfl, h.1.1, h.1.2⟩
  · rw [if_neg h]; exact .inr rfl

theorem Inv.step {minDelay ratio : Nat} (hm : minDelay ≤ 50000000) {w : W} (h : Inv minDelay ratio w) (op : Op) :
    ∃ w', step w op = .ok w' ∧ Inv minDelay ratio w' := by
  cases op with
  | update c m r =>
    obtain ⟨t, ht, hg⟩ := new_ok (minimum := w.f.min) (by rw [h.min]; exact hm) w.f.ratio c m r
    refine ⟨{ w with f := { w.f with target := t } }, ?_, h.min, h.ratio, ?_, h.sane, h.seq, h.one⟩
    · unfold AckRate.step
      dsimp only
      unfold Flex.update
      rw [ht]
      rfl
    · exact ⟨hg.packets.1, hg.packets.2, by rw [← h.min]; exact hg.delay.1, hg.delay.2⟩
  | write room =>
    unfold AckRate.step
    dsimp only
    rcases write_cases w.f room with ⟨hw, _⟩ | hw <;> rw [hw]
    · refine ⟨_, rfl, h.min, h.ratio, h.target, ?_, ?_, rfl⟩
      · intro fr hf
        rcases List.mem_append.mp hf with hf | hf
        · exact h.sane fr hf
        · rw [List.mem_singleton.mp hf]
          have := h.target
          unfold Sane Rate.frame
          dsimp only
          refine ⟨by omega, by omega, by omega, by omega⟩
      · dsimp only
        rw [List.map_append, h.seq, List.range_succ]; rfl
    · exact ⟨_, rfl, h⟩
  | arrive =>
    unfold AckRate.step
    dsimp only
    split
    · rename_i fl hfl
      refine ⟨_, rfl, h.min, h.ratio, h.target, h.sane, h.seq, ?_⟩
      have := h.one
      rw [hfl] at this
      exact this
    · exact ⟨w, rfl, h⟩
  | acked =>
    unfold AckRate.step
    dsimp only
    split
    · exact ⟨_, rfl, h.min, h.ratio, h.target, h.sane, h.seq, rfl⟩
    · exact ⟨w, rfl, h⟩
  | lost =>
    unfold AckRate.step
    dsimp only
    split
    · exact ⟨_, rfl, h.min, h.ratio, h.target, h.sane, h.seq, rfl⟩
    · exact ⟨w, rfl, h⟩

theorem Inv.run {minDelay ratio : Nat} (hm : minDelay ≤ 50000000) (ops : List Op) : ∀ {w : W}, Inv minDelay ratio w →
    ∃ w', run w ops = .ok w' ∧ Inv minDelay ratio w' := by
  induction ops with
  | nil => intro w h; exact ⟨w, rfl, h⟩
  | cons op ops ih =>
    intro w h
    obtain ⟨w1, h1, hi⟩ := h.step hm op
    obtain ⟨w2, h2, hi2⟩ := ih hi
    refine ⟨w2, ?_, hi2⟩
    unfold AckRate.run; rw [h1]; exact h2

theorem new_flex {maxDelay minDelay : Nat} (hm : minDelay ≤ 50000000) (ratio cwnd mtu rtt : Nat) :
    ∃ f, Flex.new maxDelay minDelay ratio cwnd mtu rtt = .ok f ∧ Inv minDelay ratio (start maxDelay f) := by
  obtain ⟨t, ht, hg⟩ := new_ok hm (max 10 ratio) cwnd mtu rtt
  refine ⟨{ current := ⟨1, maxDelay⟩, target := t, seqno := 0, outstanding := false, min := minDelay, ratio := max 10 ratio },
    by unfold Flex.new; rw [ht]; rfl, rfl, rfl, ⟨hg.packets.1, hg.packets.2, hg.delay⟩, ?_, rfl, rfl⟩
  intro fr hf; cases hf

/-! ## The properties -/

/-- C83: whatever happens on a path, the peer is asked for acknowledgments of at least every 256th
packet, within 50 ms and not sooner than it can; the frames are numbered in order; and there is at
most one on its way.  Partial: if the peer's smallest delay is not over 50 ms; otherwise, see
`C83_min_delay_panics`. -/
theorem C83_frames_partial (maxDelay minDelay ratio cwnd mtu rtt : Nat) (hm : minDelay ≤ 50000000) (ops : List Op) :
    ∃ f w, Flex.new maxDelay minDelay ratio cwnd mtu rtt = .ok f ∧ run (start maxDelay f) ops = .ok w ∧
      (∀ fr ∈ w.frames, Sane minDelay fr) ∧ w.frames.map (·.seqno) = List.range w.frames.length ∧
      (w.flight.isSome → ∀ room, (w.f.write room).2 = none) := by
  obtain ⟨f, hf, hi⟩ := new_flex (maxDelay := maxDelay) hm ratio cwnd mtu rtt
  obtain ⟨w, hw, hi⟩ := hi.run hm ops
  refine ⟨f, w, hf, hw, hi.sane, ?_, ?_⟩
  · have := congrArg List.length hi.seq
    rw [List.length_map, List.length_range] at this
    rw [this]; exact hi.seq
  · intro hs room
    rw [← hi.one] at hs
    unfold Flex.write; rw [hs]; rfl

/-- C83: what is asked for fits the window and the round-trip time: as many acknowledgments for each
of them as the application wants (`ratio / 10`), or one for every second packet, or as soon as the
peer can. -/
theorem C83_target (minDelay ratio cwnd mtu rtt : Nat) (hm : minDelay ≤ 50000000) :
    ∃ r, Rate.new minDelay (max 10 ratio) cwnd mtu rtt = .ok r ∧
      r.packets + 1 ≤ max 2 (cwnd * 10 / mtu / max 10 ratio) ∧ r.delay ≤ max minDelay (rtt * 10 / max 10 ratio) := by
  obtain ⟨r, hr, hg⟩ := new_ok hm (max 10 ratio) cwnd mtu rtt
  exact ⟨r, hr, hg.often, hg.soon⟩

/-- C83: a frame is sent if and only if none is on its way and what the peer does differs from what is
wanted: in the number of packets, or by more than a quarter of the delay. -/
theorem C83_when_needed (f : Flex) : (∃ fr, (f.write true).2 = some fr) ↔ f.outstanding = false ∧
    (f.current.packets ≠ f.target.packets ∨ f.target.delay + f.target.delay / 4 < f.current.delay ∨
      f.current.delay + f.target.delay / 4 < f.target.delay) := by
  have hn : f.current.needsUpdate f.target = true ↔ (f.current.packets ≠ f.target.packets ∨
      f.target.delay + f.target.delay / 4 < f.current.delay ∨ f.current.delay + f.target.delay / 4 < f.target.delay) := by
    unfold Rate.needsUpdate
    by_cases h : f.current.packets = f.target.packets
    · simp [h]
    · simp [h]
  rw [← hn]
  unfold Flex.write
  cases ho : f.outstanding <;> cases hu : f.current.needsUpdate f.target <;> simp

/-- What holds in calm histories. -/
structure Know (w : W) : Prop where
  none : w.flight = none → w.peer = w.f.current.delay
  flying : ∀ r b, w.flight = some ⟨r, b⟩ → r = w.f.target ∧ w.peer = (if b then r.delay else w.f.current.delay)

theorem Know.step {w w' : W} (h : Know w) (ho : w.f.outstanding = w.flight.isSome) (op : Op) (ops : List Op)
    (hc : Calm w (op :: ops)) (hs : step w op = .ok w') : Know w' := by
  have hc := hc.1
  cases op with
  | update c m r =>
    dsimp only at hc
    unfold AckRate.step at hs
    obtain ⟨f, hf, hs⟩ := Except.bind_eq_ok.mp hs
    cases hs
    have hcur : f.current = w.f.current := by
      unfold Flex.update at hf
      obtain ⟨t, _, ht⟩ := Except.bind_eq_ok.mp hf
      cases ht; rfl
    refine ⟨fun _ => by rw [h.none hc]; exact congrArg Rate.delay hcur.symm, ?_⟩
    intro r b hfl
    dsimp only at hfl
    rw [hc] at hfl; cases hfl
  | write room =>
    unfold AckRate.step at hs
    dsimp only at hs
    rcases write_cases w.f room with ⟨hw, hout, _⟩ | hw <;> rw [hw] at hs <;> cases hs
    · have hn : w.flight = Option.none := by
        rw [ho] at hout
        cases hf : w.flight with
        | none => rfl
        | some x => rw [hf] at hout; cases hout
      refine ⟨fun hx => (by cases hx), ?_⟩
      intro r b hfl
      cases hfl
      exact ⟨rfl, by simpa using h.none hn⟩
    · exact h
  | arrive =>
    unfold AckRate.step at hs
    dsimp only at hs
    split at hs
    · rename_i fl hfl
      cases hs
      refine ⟨fun hx => (by cases hx), ?_⟩
      intro r b he
      cases he
      exact ⟨(h.flying fl.rate fl.arrived hfl).1, by simp⟩
    · cases hs; exact h
  | acked =>
    unfold AckRate.step at hs
    dsimp only at hs
    split at hs
    · rename_i r hfl
      cases hs
      refine ⟨fun _ => ?_, fun r b he => (by cases he)⟩
      have := (h.flying r true hfl).2
      simpa [Flex.acked] using this
    · cases hs; exact h
  | lost =>
    dsimp only at hc
    unfold AckRate.step at hs
    dsimp only at hs
    split at hs
    · rename_i fl hfl
      cases hs
      refine ⟨fun _ => ?_, fun r b he => (by cases he)⟩
      obtain ⟨r, b⟩ := fl
      cases b with
      | true => exact absurd hfl (hc r)
      | false =>
        have := (h.flying r false hfl).2
        simpa [Flex.lost] using this
    · cases hs; exact h

/-- C83: the delay that probe timeouts allow for is at least the one that the peer uses.  Partial: in
calm histories; see `C83_delay_too_short` for others. -/
theorem C83_delay_partial (maxDelay minDelay ratio cwnd mtu rtt : Nat) (hm : minDelay ≤ 50000000) (f : Flex)
    (hf : Flex.new maxDelay minDelay ratio cwnd mtu rtt = .ok f) (ops : List Op) (hc : Calm (start maxDelay f) ops)
    (w : W) (hw : run (start maxDelay f) ops = .ok w) : w.peer ≤ w.f.peerDelay := by
  have key : ∀ (ops : List Op) (w0 : W), Inv minDelay ratio w0 → Know w0 → Calm w0 ops → run w0 ops = .ok w → Know w ∧ Inv minDelay ratio w := by
    intro ops
    induction ops with
    | nil => intro w0 hi hk _ hr; cases hr; exact ⟨hk, hi⟩
    | cons op ops ih =>
      intro w0 hi hk hc hr
      obtain ⟨w1, h1, hi1⟩ := hi.step hm op
      unfold AckRate.run at hr
      rw [h1] at hr
      exact ih w1 hi1 (hk.step hi.one op ops hc h1) (hc.2 w1 h1) hr
  obtain ⟨f', hf', hi⟩ := new_flex (maxDelay := maxDelay) hm ratio cwnd mtu rtt
  rw [hf] at hf'
  cases hf'
  have hcur : f.current.delay = maxDelay := by
    unfold Flex.new at hf
    obtain ⟨t, _, ht⟩ := Except.bind_eq_ok.mp hf
    cases ht; rfl
  obtain ⟨hk, _⟩ := key ops _ hi ⟨fun _ => hcur.symm, fun r b he => by cases he⟩ hc hw
  unfold Flex.peerDelay
  cases hfl : w.flight with
  | none => rw [hk.none hfl]; omega
  | some fl =>
    obtain ⟨r, b⟩ := fl
    obtain ⟨h1, h2⟩ := hk.flying r b hfl
    rw [h2]
    cases b with
    | true => rw [if_pos rfl, h1]; omega
    | false => rw [if_neg (by simp)]; omega

/-! ## What goes wrong -/

/-- A peer can make the connection panic: with transport parameters that are valid on their own (the
largest delay less than 2^14 ms, tparams.rs:342-346, the smallest less than 2^24 µs,
tparams.rs:377-380), if the smallest is over 50 ms and not over the largest. -/
theorem C83_min_delay_panics (maxMs minUs ratio cwnd mtu rtt : Nat) :
    processTps maxMs (some minUs) ratio cwnd mtu rtt = .error .clamp ↔ 50000 < minUs ∧ minUs ≤ maxMs * 1000 := by
  unfold processTps
  dsimp only
  by_cases h : maxMs * 1000000 < minUs * 1000
  · rw [if_pos h]
    exact ⟨fun h => (by cases h), fun h => (by omega)⟩
  · rw [if_neg h]
    by_cases hm : minUs * 1000 ≤ 50000000
    · obtain ⟨f, hf, _⟩ := new_flex (maxDelay := maxMs * 1000000) hm ratio cwnd mtu rtt
      rw [hf]
      exact ⟨fun h => (by cases h), fun h => (by omega)⟩
    · unfold Flex.new
      rw [new_panics (by omega)]
      exact ⟨fun _ => (by omega), fun _ => rfl⟩

/-- For example, with 100 ms and 60 ms, and everything else as at the start of a connection. -/
example : processTps 100 (some 60000) 40 12520 1252 100000000 = .error .clamp ∧ 100 < 2 ^ 14 ∧ 60000 < 2 ^ 24 := by decide

/-- When the window shrinks while a frame is on its way, then the delay in that frame is forgotten,
though the peer uses it: here, the peer delays acknowledgments by 50 ms, but timeouts allow for 25 ms. -/
theorem C83_delay_too_short :
    ∃ f w, Flex.new 25000000 1000000 40 125200 1252 400000000 = .ok f ∧
      run (start 25000000 f) [.write true, .arrive, .update 62600 1252 40000000] = .ok w ∧
      w.peer = 50000000 ∧ w.f.peerDelay = 25000000 := by
  exact ⟨_, _, rfl, rfl, rfl, rfl⟩

/-- The paths, each with what was copied from the primary path when it was made (`prime_rtt`,
rtt.rs:81-84; path.rs:99-101).  Frames, acknowledgments and losses are for the primary path
(path.rs:424-449). -/
structure Paths where
  list : List Flex
  primary : Nat
  frames : List Frame
  deriving Repr, DecidableEq

inductive POp where
  | newPath
  | migrate (i : Nat)
  | write
  | acked (r : Rate)
  | update (cwnd mtu rtt : Nat)
  deriving Repr, DecidableEq

def pstep (p : Paths) (op : POp) : Except Panic Paths :=
  match p.list[p.primary]? with
  | none => .ok p
  | some f =>
    match op with
    | .newPath => .ok { p with list := p.list ++ [f] }
    | .migrate i => .ok { p with primary := i }
    | .write => .ok { p with list := p.list.set p.primary (f.write true).1, frames := p.frames ++ (f.write true).2.toList }
    | .acked r => .ok { p with list := p.list.set p.primary (f.acked r) }
    | .update c m r => do
      let f ← f.update c m r
      return { p with list := p.list.set p.primary f }

def prun (p : Paths) : List POp → Except Panic Paths
  | [] => .ok p
  | op :: ops => do
    let p ← pstep p op
    prun p ops

/-- After a migration, sequence numbers are used again, for other requests; the peer ignores all but
the first frame with a number. -/
theorem C83_number_reused :
    ∃ f p, Flex.new 25000000 1000000 40 125200 1252 400000000 = .ok f ∧
      prun ⟨[f], 0, []⟩ [.newPath, .write, .acked f.target, .migrate 1, .update 62600 1252 40000000, .write] = .ok p ∧
      p.frames = [⟨0, 25, 50000⟩, ⟨0, 12, 10000⟩] := by
  exact ⟨_, _, rfl, rfl, rfl⟩

/-- A path that is made while a frame is on its way, and becomes primary after that frame was
acknowledged, never sends such a frame: it waits for an acknowledgment that was already received. -/
theorem C83_stuck_after_migration (updates : List (Nat × Nat × Nat)) :
    ∃ f p, Flex.new 25000000 1000000 40 125200 1252 400000000 = .ok f ∧
      prun ⟨[f], 0, []⟩ ([.write, .newPath, .acked f.target, .migrate 1] ++ updates.flatMap fun u => [.update u.1 u.2.1 u.2.2, .write]) = .ok p ∧
      p.frames.length = 1 := by
  have key : ∀ (us : List (Nat × Nat × Nat)) (a b : Flex) (l : List Frame), b.outstanding = true → b.min ≤ 50000000 →
      ∃ p, prun ⟨[a, b], 1, l⟩ (us.flatMap fun u => [.update u.1 u.2.1 u.2.2, .write]) = .ok p ∧ p.frames = l := by
    intro us
    induction us with
    | nil => intro a b l _ _; exact ⟨_, rfl, rfl⟩
    | cons u us ih =>
      intro a b l hb hm
      obtain ⟨t, ht, _⟩ := new_ok hm b.ratio u.1 u.2.1 u.2.2
      obtain ⟨p, hp, hl⟩ := ih a { b with target := t } l hb hm
      refine ⟨p, ?_, hl⟩
      rw [List.flatMap_cons]
      simp only [List.cons_append, List.nil_append, prun]
      rw [show pstep ⟨[a, b], 1, l⟩ (.update u.1 u.2.1 u.2.2) = .ok ⟨[a, { b with target := t }], 1, l⟩ by
        unfold pstep Flex.update; simp [ht, bind, Except.bind, pure, Except.pure]]
      simp only [bind, Except.bind]
      rw [show pstep ⟨[a, { b with target := t }], 1, l⟩ .write = .ok ⟨[a, { b with target := t }], 1, l⟩ by
        unfold pstep Flex.write; simp [hb]]
      exact hp
  obtain ⟨p, hp, hl⟩ := key updates ⟨⟨24, 50000000⟩, ⟨24, 50000000⟩, 1, false, 1000000, 40⟩
    ⟨⟨1, 25000000⟩, ⟨24, 50000000⟩, 1, true, 1000000, 40⟩ [⟨0, 25, 50000⟩] rfl (by decide)
  exact ⟨⟨⟨1, 25000000⟩, ⟨24, 50000000⟩, 0, false, 1000000, 40⟩, p, rfl, hp, by rw [hl]; rfl⟩

/-! ## Examples -/

/-- A calm history: a frame is sent, arrives and is acknowledged; the window grows; the next one is
lost, and sent again. -/
def calmOps : List Op := [.write true, .arrive, .acked, .update 100160 1252 200000000, .write true, .lost, .write true]

def calmStart : Flex := ⟨⟨1, 25000000⟩, ⟨9, 25000000⟩, 0, false, 1000000, 40⟩

example : Flex.new 25000000 1000000 40 50080 1252 100000000 = .ok calmStart := by decide

example : (run (start 25000000 calmStart) calmOps).map (·.frames) =
    .ok [⟨0, 10, 25000⟩, ⟨1, 20, 50000⟩, ⟨2, 20, 50000⟩] := by decide

example : Calm (start 25000000 calmStart) calmOps := by
  unfold calmOps
  refine ⟨trivial, fun w h => ?_⟩; cases h
  refine ⟨trivial, fun w h => ?_⟩; cases h
  refine ⟨trivial, fun w h => ?_⟩; cases h
  refine ⟨rfl, fun w h => ?_⟩; cases h
  refine ⟨trivial, fun w h => ?_⟩; cases h
  refine ⟨fun r h => (by cases h), fun w h => ?_⟩; cases h
  refine ⟨trivial, fun w h => ?_⟩; cases h
  trivial

end Neqo.AckRate
