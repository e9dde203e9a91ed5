import Verif.SendStream.TrackerModel
import Verif.Codec.Model
import Verif.Flow.Model

/-!
# Model of `TxBuffer` (`neqo-transport/src/send_stream.rs:464-591`)
-/
namespace Neqo.Send
open Neqo.Codec (Bytes)

/-- `TxBuffer::MAX_SIZE` (send_stream.rs:482). -/
def txMax : Nat := Flow.maxLocalMaxStreamData

/-- `TxBuffer` (send_stream.rs:466-469).  The `VecDeque` is a list; where its contents are split
into two slices is left open (a parameter of `nextBytes`). -/
structure Tx where
  buf : Bytes := []
  ranges : Tracker := {}
  deriving Repr, DecidableEq

/-- `retired` (send_stream.rs:576-578). -/
def Tx.retired (t : Tx) : Nat := t.ranges.acked

/-- `used` (send_stream.rs:588-590). -/
def Tx.used (t : Tx) : Nat := t.retired + t.buf.length

/-- `avail` (send_stream.rs:584-586); the subtraction would panic if the buffer were too big. -/
def Tx.avail (t : Tx) : Except Err Nat :=
  if t.buf.length ≤ txMax then .ok (txMax - t.buf.length) else .error .panic

/-- `send` (send_stream.rs:490-497). -/
def Tx.send (t : Tx) (data : Bytes) : Except Err (Tx × Nat) :=
  match t.avail with
  | .error e => .error e
  | .ok a =>
    let n := min a data.length
    .ok ({ t with buf := t.buf ++ data.take n }, n)

/-- `first_unmarked_range` (send_stream.rs:499-503). -/
def Tx.first (t : Tx) : Tx × Option (Nat × Option Nat) :=
  let r := t.ranges.firstUnmarked
  let t' := { t with ranges := r.1 }
  (t', if r.2.1 ≠ t.retired + t.buf.length then some r.2 else none)

/-- `has_next_bytes` (send_stream.rs:509-511). -/
def Tx.hasNext (t : Tx) : Bool := t.first.2.isSome

/-- `has_next_bytes_before` (send_stream.rs:514-517). -/
def Tx.hasNextBefore (t : Tx) (limit : Nat) : Bool :=
  match t.first.2 with
  | some (start, _) => decide (start < limit)
  | none => false

/-- `next_bytes` (send_stream.rs:519-544).  `split` is the length of the first of the two slices
the deque consists of.  Underflow and slicing out of bounds are panics. -/
def Tx.next (t : Tx) (split : Nat) : Except Err (Tx × Option (Nat × Bytes)) :=
  match t.first with
  | (t', none) => .ok (t', none)
  | (t', some (start, maybeLen)) =>
    if start < t.retired then .error .panic
    else
      let off := start - t.retired
      if t.buf.length < off then .error .panic
      else
        let slc := if off < split then (t.buf.take split).drop off else t.buf.drop off
        let len := match maybeLen with
          | some l => min l slc.length
          | none => slc.length
        .ok (t', some (start, slc.take len))

/-- `mark_as_sent` (send_stream.rs:546-548). -/
def Tx.markSent (t : Tx) (off len : Nat) : Except Err Tx :=
  match t.ranges.markSent off len with
  | .ok r => .ok { t with ranges := r }
  | .error e => .error e

/-- `mark_as_acked` (send_stream.rs:555-564); draining more than there is panics. -/
def Tx.markAcked (t : Tx) (off len : Nat) : Except Err Tx :=
  let r := t.ranges.markAcked off len
  if r.acked < t.retired ∨ t.buf.length < r.acked - t.retired then .error .panic
  else .ok { buf := t.buf.drop (r.acked - t.retired), ranges := r }

/-- `mark_as_lost` (send_stream.rs:566-568). -/
def Tx.markLost (t : Tx) (off len : Nat) : Except Err Tx :=
  match t.ranges.unmark off len with
  | .ok r => .ok { t with ranges := r }
  | .error e => .error e

end Neqo.Send
