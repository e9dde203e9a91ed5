import Verif.SendStream.TrackerModel

/-!
# Specification of byte tracking

A tracker stands for a map from byte offsets to marks.
-/
namespace Neqo.Send

inductive Mark where
  | unsent
  | sent
  | acked
  deriving Repr, DecidableEq

/-- The mark of byte `i`, read off the representation. -/
def Tracker.mark (t : Tracker) (i : Nat) : Mark :=
  if i < t.acked then .acked
  else
    match t.used.find? (fun e => decide (e.1 ≤ i ∧ i < e.1 + e.2.1)) with
    | some (_, (_, .acked)) => .acked
    | some (_, (_, .sent)) => .sent
    | none => .unsent

/-- Intended effect of acknowledging `[off, off+len)`. -/
def ackSpec (f : Nat → Mark) (off len i : Nat) : Mark :=
  if off ≤ i ∧ i < off + len then .acked else f i

/-- Intended effect of sending `[off, off+len)`. -/
def sentSpec (f : Nat → Mark) (off len i : Nat) : Mark :=
  if off ≤ i ∧ i < off + len ∧ f i ≠ .acked then .sent else f i

/-- Intended effect of losing `[off, off+len)`. -/
def lostSpec (f : Nat → Mark) (off len i : Nat) : Mark :=
  if off ≤ i ∧ i < off + len ∧ f i ≠ .acked then .unsent else f i

/-- Operations on a tracker. -/
inductive TOp where
  | acked (off len : Nat)
  | sent (off len : Nat)
  | lost (off len : Nat)
  | lostAll
  /-- Ask for the first range that needs sending. -/
  | query
  deriving Repr, DecidableEq

def Tracker.step (t : Tracker) : TOp → Except Err Tracker
  | .acked o l => .ok (t.markAcked o l)
  | .sent o l => t.markSent o l
  | .lost o l => t.unmark o l
  | .lostAll => t.unmarkSent
  | .query => .ok t.firstUnmarked.1

def Tracker.run (t : Tracker) : List TOp → Except Err Tracker
  | [] => .ok t
  | op :: ops => do
    let t1 ← t.step op
    t1.run ops

end Neqo.Send
