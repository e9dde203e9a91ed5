import Verif.Lib.Basic
import Verif.Lib.Err

/-!
# Model of the round-trip estimator, `neqo-transport/src/rtt.rs`

Times and durations are nanoseconds.  The peer's maximum acknowledgement delay is one number that the
environment may change at any time, in place of the negotiation in `ackrate.rs`.
-/
namespace Neqo.Rec

/-- `GRANULARITY` (rtt.rs:24): 1 ms. -/
def granularity : Nat := 1000000

/-- `RttSource` (rtt.rs:30-37), by its order. -/
inductive Src where
  | guess | ack | confirmed
  deriving Repr, DecidableEq

def Src.rank : Src → Nat
  | .guess => 0
  | .ack => 1
  | .confirmed => 2

/-- `RttEstimate` (rtt.rs:40-48). -/
structure Rtt where
  first : Option Nat := none
  latest : Nat
  smoothed : Nat
  var : Nat
  min : Nat
  maxAckDelay : Nat := 25000000
  best : Src := .guess
  deriving Repr, DecidableEq

/-- `RttEstimate::new` (rtt.rs:51-61). -/
def Rtt.new (initial : Nat) : Rtt := { latest := initial, smoothed := initial, var := initial / 2, min := initial }

/-- `RttEstimate::set_initial` with `init` (rtt.rs:63-70). -/
def Rtt.setInitial (r : Rtt) (rtt : Nat) : Except Err Rtt :=
  if rtt ≥ granularity then
    match r.first with
    | some _ => .error .panic
    | none => .ok { r with latest := rtt, min := rtt, smoothed := rtt, var := rtt / 2 }
  else .ok r

/-- The sample after taking away the acknowledgement delay (rtt.rs:110-124). -/
def Rtt.adjust (r : Rtt) (sample ackDelay : Nat) : Nat :=
  let d := if r.best = .confirmed ∧ ackDelay > r.maxAckDelay then r.maxAckDelay else ackDelay
  if sample ≥ d + Nat.min r.min sample then sample - d else sample

/-- The absolute difference of two durations. -/
def absDiff (a b : Nat) : Nat := (a - b) + (b - a)

/-- `RttEstimate::update` (rtt.rs:98-151). -/
def Rtt.update (r : Rtt) (sample ackDelay : Nat) (src : Src) (now : Nat) : Except Err Rtt :=
  if src.rank < r.best.rank then .error .panic
  else
    let r := { r with best := src }
    let s := r.adjust sample ackDelay
    match r.first with
    | none => .ok { r with latest := s, min := s, smoothed := s, var := s / 2, first := some now }
    | some _ =>
      .ok { r with latest := s, min := Nat.min r.min sample, var := (r.var * 3 + absDiff r.smoothed s) / 4, smoothed := (r.smoothed * 7 + s) / 8 }

/-- `RttEstimate::pto` (rtt.rs:158-164). -/
def Rtt.pto (r : Rtt) (confirmed : Bool) : Nat :=
  r.smoothed + Nat.max (4 * r.var) granularity + (if confirmed then r.maxAckDelay else 0)

/-- `RttEstimate::loss_delay` (rtt.rs:168-174). -/
def Rtt.lossDelay (r : Rtt) : Nat := Nat.max (Nat.max r.latest r.smoothed * 9 / 8) granularity

end Neqo.Rec
