import Verif.Lib.Basic
import Verif.Lib.Err

/-!
# Model of `neqo-transport/src/fc.rs`

Counters are `Nat`.  The Rust type is `u64`; every limit is at most `2^62 - 1`
(`MAX_VARINT`), so sums of two of them do not overflow.  The products in
`auto_tune_inner` are computed in `Nat` as well: the model does not cover their
overflow for windows larger than `MAX_LOCAL_MAX_DATA`.  Subtractions that could
underflow return `Err.panic`.
-/
namespace Neqo.Flow

/-- `MAX_VARINT` (neqo-common/src/codec.rs). -/
def maxVarint : Nat := 2 ^ 62 - 1
/-- `WINDOW_UPDATE_FRACTION` (fc.rs:38). -/
def windowUpdateFraction : Nat := 4
/-- `WINDOW_INCREASE_MULTIPLIER` (fc.rs:46). -/
def windowIncreaseMultiplier : Nat := 4
/-- `MAX_LOCAL_MAX_STREAM_DATA` (connection/params.rs:82). -/
def maxLocalMaxStreamData : Nat := 10 * 1024 * 1024
/-- `MAX_LOCAL_MAX_DATA` (connection/params.rs:87). -/
def maxLocalMaxData : Nat := maxLocalMaxStreamData * 2

/-! ## Sender side -/

/-- `SenderFlowControl` (fc.rs:66-82), without the subject. -/
structure SFc where
  limit : Nat
  used : Nat := 0
  blockedAt : Option Nat := none
  blockedFrame : Bool := false
  deriving Repr, DecidableEq

/-- `available` (fc.rs:118-120); the cap at `usize::MAX` is vacuous on 64-bit targets. -/
def SFc.available (s : SFc) : Nat := s.limit - s.used

/-- `update` (fc.rs:101-107). -/
def SFc.update (s : SFc) (limit : Nat) : SFc × Option Nat :=
  if limit > s.limit then
    let s' := { s with limit := limit, blockedFrame := false }
    (s', some s'.available)
  else (s, none)

/-- `consume` (fc.rs:110-114). -/
def SFc.consume (s : SFc) (amt : Nat) : Except Err SFc :=
  if s.used + amt ≤ s.limit then .ok { s with used := s.used + amt } else .error .panic

/-- `blocked` (fc.rs:129-137). -/
def SFc.blocked (s : SFc) : SFc :=
  match s.blockedAt with
  | some b =>
    if s.limit ≤ b then s else { s with blockedAt := some s.limit, blockedFrame := true }
  | none => { s with blockedAt := some s.limit, blockedFrame := true }

/-- `blocked_needed` (fc.rs:143-146). -/
def SFc.blockedNeeded (s : SFc) : Option Nat :=
  s.blockedAt.filter (fun l => s.blockedFrame && decide (s.limit ≤ l))

/-- `is_blocked` (fc.rs:149-151). -/
def SFc.isBlocked (s : SFc) : Bool := s.blockedNeeded.isSome

/-- `blocked_sent` (fc.rs:154-156). -/
def SFc.blockedSent (s : SFc) : SFc := { s with blockedFrame := false }

/-- `frame_lost` (fc.rs:161-167). -/
def SFc.frameLost (s : SFc) (limit : Nat) : SFc :=
  match s.blockedAt with
  | some b => if b = limit then { s with blockedFrame := true } else s
  | none => s

/-- `write_frames` (fc.rs:171-186, 190-212, 216-238): the limit carried by the
DATA_BLOCKED / STREAM_DATA_BLOCKED / STREAMS_BLOCKED frame written, if any.  `fits`
says whether the packet builder had room for it. -/
def SFc.write (s : SFc) (fits : Bool) : SFc × Option Nat :=
  match s.blockedNeeded with
  | some l => if fits then (s.blockedSent, some l) else (s, none)
  | none => (s, none)

/-! ## Receiver side -/

/-- `ReceiverFlowControl` (fc.rs:242-267), without the subject.  Times are in
microseconds. -/
structure RFc where
  maxActive : Nat
  maxAllowed : Nat
  lastUpdate : Option Nat := none
  consumed : Nat := 0
  retired : Nat := 0
  framePending : Bool := false
  deriving Repr, DecidableEq

/-- `new` (fc.rs:274-284). -/
def RFc.new (max : Nat) : RFc := { maxActive := max, maxAllowed := max }

/-- `should_send_update` (fc.rs:307-310). -/
def RFc.shouldSendUpdate (s : RFc) : Except Err Bool :=
  if s.maxAllowed < s.retired then .error .panic
  else .ok (decide (s.maxAllowed - s.retired < s.maxActive - s.maxActive / windowUpdateFraction))

/-- `send_flowc_update` (fc.rs:301-305). -/
def RFc.sendFlowcUpdate (s : RFc) : RFc :=
  if s.retired + s.maxActive > s.maxAllowed then { s with framePending := true } else s

/-- `next_limit` (fc.rs:316-323). -/
def RFc.nextLimit (s : RFc) : Nat := min (s.retired + s.maxActive) maxVarint

/-- `frame_lost` (fc.rs:329-333). -/
def RFc.frameLost (s : RFc) (m : Nat) : RFc :=
  if m = s.maxAllowed then { s with framePending := true } else s

/-- `frame_sent` (fc.rs:335-338). -/
def RFc.frameSent (s : RFc) (m : Nat) : RFc := { s with maxAllowed := m, framePending := false }

/-- `set_max_active` (fc.rs:340-344). -/
def RFc.setMaxActive (s : RFc) (m : Nat) : RFc :=
  { s with framePending := s.framePending || decide (s.maxActive < m), maxActive := m }

/-- `auto_tune_inner` (fc.rs:359-453).  A zero `rtt` disables tuning. -/
def RFc.autoTune (s : RFc) (now rtt maxWindow : Nat) : Except Err RFc :=
  match s.lastUpdate with
  | none => .ok s
  | some sentAt =>
    if rtt = 0 then .ok s
    else
      let elapsed := now - sentAt
      let effectiveWindow := s.maxActive * (windowUpdateFraction - 1) / windowUpdateFraction
      let expected := effectiveWindow * elapsed / rtt
      if s.maxAllowed < s.retired ∨ s.maxActive < s.maxAllowed - s.retired then .error .panic
      else
        let used := s.maxActive - (s.maxAllowed - s.retired)
        if used < expected then .ok s
        else
          let newMax := min (s.maxActive + (used - expected) * windowIncreaseMultiplier) maxWindow
          if newMax ≤ s.maxActive then .ok s else .ok { s with maxActive := newMax }

/-- `write_frames` for MAX_DATA and MAX_STREAM_DATA (fc.rs:457-480, 516-546): the limit
written, if any. -/
def RFc.write (s : RFc) (fits : Bool) (now rtt maxWindow : Nat) : Except Err (RFc × Option Nat) :=
  if s.framePending then
    match s.autoTune now rtt maxWindow with
    | .error e => .error e
    | .ok s1 =>
      if fits then .ok ({ s1.frameSent s1.nextLimit with lastUpdate := some now }, some s1.nextLimit)
      else .ok (s1, none)
  else .ok (s, none)

/-- `write_frames` for MAX_STREAMS (fc.rs:588-610): no auto-tuning. -/
def RFc.writeStreams (s : RFc) (fits : Bool) : RFc × Option Nat :=
  if s.framePending then
    if fits then (s.frameSent s.nextLimit, some s.nextLimit) else (s, none)
  else (s, none)

/-- `add_retired` for bytes (fc.rs:493-499, 564-570). -/
def RFc.addRetired (s : RFc) (count : Nat) : Except Err RFc :=
  if s.retired + count ≤ s.consumed then
    let s1 := { s with retired := s.retired + count }
    match s1.shouldSendUpdate with
    | .error e => .error e
    | .ok b => .ok (if b then { s1 with framePending := true } else s1)
  else .error .panic

/-- `consume` on the connection (fc.rs:501-512). -/
def RFc.consume (s : RFc) (count : Nat) : Except Err RFc :=
  if s.consumed + count > s.maxAllowed then .error .flowControl
  else .ok { s with consumed := s.consumed + count }

/-- `set_consumed` on a stream (fc.rs:572-584). -/
def RFc.setConsumed (s : RFc) (consumed : Nat) : Except Err (RFc × Nat) :=
  if consumed ≤ s.consumed then .ok (s, 0)
  else if consumed > s.maxAllowed then .error .flowControl
  else .ok ({ s with consumed := consumed }, consumed - s.consumed)

/-- `check_allowed` for stream counts (fc.rs:613-615). -/
def RFc.checkAllowed (s : RFc) (newEnd : Nat) : Bool := decide (newEnd < s.maxAllowed)

/-- `add_retired` for stream counts (fc.rs:619-624). -/
def RFc.addRetiredStreams (s : RFc) (count : Nat) : RFc :=
  let s1 := { s with retired := s.retired + count }
  if count > 0 then s1.sendFlowcUpdate else s1

end Neqo.Flow
