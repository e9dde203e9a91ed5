import Verif.Codec.Model
import Verif.Lib.Basic
import Verif.Lib.Err

/-!
# Model of `neqo-transport/src/tracking.rs` and `Frame::decode_ack_frame`

Times are nanoseconds.  Packet numbers are `Nat`; they are at most `2^62 - 1`, so additions of small
numbers cannot overflow a `u64`.  Subtractions that could underflow and failing assertions return
`Err.panic`.  Statistics and logging are left out.
-/
namespace Neqo.Acks
open Neqo.Codec (maxVarint)

/-- `PacketRange` (tracking.rs:84-88). -/
structure PRange where
  largest : Nat
  smallest : Nat
  needed : Bool
  deriving Repr, DecidableEq

/-- `PacketRange::new` (tracking.rs:92-98). -/
def PRange.new (pn : Nat) : PRange := ⟨pn, pn, true⟩

/-- `PacketRange::contains` (tracking.rs:111-113). -/
def PRange.contains (r : PRange) (pn : Nat) : Bool := decide (pn ≥ r.smallest) && decide (pn ≤ r.largest)

/-- `PacketRange::len` (tracking.rs:101-103). -/
def PRange.len (r : PRange) : Except Err Nat :=
  if r.smallest ≤ r.largest then .ok (r.largest - r.smallest + 1) else .error .panic

/-- `PacketRange::merge_larger` (tracking.rs:137-144). -/
def PRange.mergeLarger (r o : PRange) : Except Err PRange :=
  if r.largest + 1 = o.smallest then .ok { r with largest := o.largest, needed := r.needed || o.needed }
  else .error .panic

/-- `PacketRange::acknowledged` (tracking.rs:149-153). -/
def PRange.acked (r o : PRange) : PRange :=
  if o.smallest ≤ r.smallest ∧ o.largest ≥ r.largest then { r with needed := false } else r

/-- The case of `RecvdPackets::add` in which a number was added at the low end of the range `r`
(tracking.rs:291-299): merge with the next range if that is now adjacent. -/
def joinNext (pn : Nat) (r : PRange) : List PRange → Except Err (List PRange)
  | [] => .ok [r]
  | nxt :: rest =>
    if pn = 0 then .error .panic
    else if pn - 1 = nxt.largest then
      match nxt.mergeLarger r with
      | .ok m => .ok (m :: rest)
      | .error e => .error e
    else .ok (r :: nxt :: rest)

/-- `RecvdPackets::add` (tracking.rs:288-311) with `PacketRange::add` (tracking.rs:118-134). -/
def addPn (pn : Nat) : List PRange → Except Err (List PRange)
  | [] => .ok [.new pn]
  | r :: rest =>
    if r.contains pn then .error .panic
    else if r.largest + 1 = pn then .ok ({ r with largest := r.largest + 1, needed := true } :: rest)
    else if r.smallest = pn + 1 then joinNext pn { r with smallest := r.smallest - 1, needed := true } rest
    else if r.largest < pn then .ok (.new pn :: r :: rest)
    else
      match addPn pn rest with
      | .ok rest' => .ok (r :: rest')
      | .error e => .error e

/-- `MAX_TRACKED_RANGES`, `MAX_ACKS_PER_FRAME` (tracking.rs:174). -/
def maxTracked : Nat := 32
def maxPerFrame : Nat := 32
/-- `DEFAULT_LOCAL_ACK_DELAY` (tracking.rs:163): 20 ms. -/
def defaultAckDelay : Nat := 20000000
/-- `DEFAULT_ACK_PACKET_TOLERANCE` (tracking.rs:172). -/
def defaultTolerance : Nat := 1

/-- `ecn::Count` as used here: ECT(0), ECT(1) and CE. -/
structure Ecn where
  ect0 : Nat := 0
  ect1 : Nat := 0
  ce : Nat := 0
  deriving Repr, DecidableEq

/-- `Count::is_some` (ecn.rs): any count is positive. -/
def Ecn.isSome (e : Ecn) : Bool := decide (e.ect0 > 0) || decide (e.ect1 > 0) || decide (e.ce > 0)

/-- `RecvdPackets` (tracking.rs:193-220). -/
structure Recvd where
  /-- Whether this is the application data space. -/
  app : Bool
  ranges : List PRange := []
  minTracked : Nat := 0
  largestTime : Option Nat := none
  ackTime : Option Nat := none
  lastAckTime : Option Nat := none
  seqno : Nat := 0
  delay : Nat := defaultAckDelay
  count : Nat := 0
  tolerance : Nat
  ignoreOrder : Bool := false
  ecn : Ecn := {}
  deriving Repr, DecidableEq

/-- `RecvdPackets::new` (tracking.rs:224-244). -/
def Recvd.new (app : Bool) : Recvd := { app := app, tolerance := if app then defaultTolerance else 0 }

/-- `ack_freq` (tracking.rs:257-273). -/
def Recvd.ackFreq (s : Recvd) (seqno tolerance delay : Nat) (ignoreOrder : Bool) : Recvd :=
  if seqno ≥ s.seqno then
    { s with seqno := seqno, tolerance := tolerance, delay := delay, ignoreOrder := ignoreOrder }
  else s

/-- `ack_now` (tracking.rs:276-283). -/
def Recvd.ackNow (s : Recvd) (now rtt : Nat) : Bool :=
  match s.ackTime with
  | none => false
  | some next =>
    decide (next ≤ now) ||
      match s.lastAckTime with
      | none => false
      | some last => decide (last + rtt ≤ now)

/-- `trim_ranges` (tracking.rs:313-326). -/
def Recvd.trim (s : Recvd) : Recvd :=
  if s.ranges.length > maxTracked then
    match s.ranges.getLast? with
    | some oldest => { s with ranges := s.ranges.dropLast, minTracked := oldest.largest + 1 }
    | none => s
  else s

/-- `next_in_order_pn` (tracking.rs:337). -/
def Recvd.nextInOrder (s : Recvd) : Nat :=
  match s.ranges with
  | [] => 0
  | r :: _ => r.largest + 1

/-- `immediate_ack` in `set_received` (tracking.rs:354-356), after counting the packet. -/
def Recvd.immediate (s : Recvd) (next pn : Nat) : Bool :=
  !s.app || (decide (pn ≠ next) && !s.ignoreOrder) || decide (s.count > s.tolerance)

/-- The part of `set_received` for ack-eliciting packets (tracking.rs:351-371). -/
def Recvd.schedule (s : Recvd) (now next pn : Nat) : Recvd :=
  let s := { s with count := s.count + 1 }
  if s.immediate next pn then { s with ackTime := some now }
  else
    match s.ackTime with
    | some _ => s
    | none => { s with ackTime := some (now + s.delay) }

/-- `set_received` (tracking.rs:330-373). -/
def Recvd.setReceived (s : Recvd) (now pn : Nat) (eliciting : Bool) : Except Err (Recvd × Bool) :=
  let next := s.nextInOrder
  match addPn pn s.ranges with
  | .error e => .error e
  | .ok rs =>
    let s := ({ s with ranges := rs } : Recvd).trim
    let largest := decide (pn ≥ next)
    let s := if largest then { s with largestTime := some now } else s
    .ok (if eliciting then s.schedule now next pn else s, largest)

/-- `immediate_ack` (tracking.rs:376-379). -/
def Recvd.immediateAck (s : Recvd) (now : Nat) : Recvd := { s with ackTime := some now }

/-- `is_duplicate` (tracking.rs:382-390). -/
def Recvd.isDuplicate (s : Recvd) (pn : Nat) : Bool :=
  if pn < s.minTracked then true
  else (s.ranges.takeWhile (fun r => decide (pn ≤ r.largest))).any (fun r => r.contains pn)

/-- The loop of `acknowledged` (tracking.rs:393-405): `rs` is the current range and those after it. -/
def ackLoop (rs : List PRange) (acked : List PRange) : List PRange :=
  match rs, acked with
  | [], _ => []
  | cur :: rest, [] => cur :: rest
  | cur :: rest, a :: as =>
    if cur.smallest > a.largest then cur :: ackLoop rest (a :: as)
    else ackLoop (cur.acked a :: rest) as
  termination_by rs.length + acked.length

/-- `acknowledged` (tracking.rs:393-405); it expects at least one range. -/
def Recvd.acknowledged (s : Recvd) (acked : List PRange) : Except Err Recvd :=
  match s.ranges with
  | [] => .error .panic
  | rs => .ok { s with ranges := ackLoop rs acked }

/-- An ACK frame (frame.rs `Frame::Ack`): ranges are gap and length as on the wire. -/
structure AckFrame where
  largest : Nat
  delay : Nat
  first : Nat
  ranges : List (Nat × Nat)
  ecn : Option Ecn
  deriving Repr, DecidableEq

/-- The extra ranges of an ACK frame (tracking.rs:485-492). -/
def encodeRanges (last : Nat) : List PRange → Except Err (List (Nat × Nat))
  | [] => .ok []
  | r :: rs =>
    if last < r.largest + 2 then .error .panic
    else
      match r.len with
      | .error e => .error e
      | .ok n =>
        match encodeRanges r.smallest rs with
        | .error e => .error e
        | .ok out => .ok ((last - r.largest - 2, n - 1) :: out)

/-- `USEFUL_ACK_LEN` (tracking.rs:409). -/
def usefulAckLen : Nat := 1 + 8 + 8 + 1 + 8 + 3 * 8

/-- `write_frame` (tracking.rs:421-511) with `remaining` bytes in the packet.  Returns the frame and
the ranges in it, which are kept in the token. -/
def Recvd.writeFrame (s : Recvd) (now rtt remaining : Nat) : Except Err (Recvd × Option (AckFrame × List PRange)) :=
  if s.ackNow now rtt = false then .ok (s, none)
  else if remaining < usefulAckLen then .ok (s, none)
  else
    let maxRanges := min (1 + (remaining - usefulAckLen) / 16) maxPerFrame
    match (s.ranges.filter (fun r => r.needed)).take maxRanges, s.largestTime with
    | [], _ => .ok (s, none)
    | _ :: _, none => .ok (s, none)
    | first :: rest, some t =>
      match first.len, encodeRanges first.smallest rest with
      | .error e, _ => .error e
      | .ok _, .error e => .error e
      | .ok n, .ok extra =>
        .ok ({ s with ackTime := none, lastAckTime := some now, count := 0 },
          some (⟨first.largest, min maxVarint ((now - t) / 8000), n - 1, extra, if s.ecn.isSome then some s.ecn else none⟩,
            first :: rest))

/-! ## Receiving ACK frames -/

/-- The loop of `decode_ack_frame` (frame.rs:388-404). -/
def decodeRanges (cur : Nat) : List (Nat × Nat) → Except Err (List (Nat × Nat))
  | [] => .ok []
  | (gap, range) :: rs =>
    if cur < gap + 1 then .error .frameEncoding
    else
      let c := cur - gap - 1
      if c < range then .error .frameEncoding
      else
        match decodeRanges (if c > range + 1 then c - (range + 1) else c - range) rs with
        | .error e => .error e
        | .ok out => .ok ((c - range, c) :: out)

/-- `decode_ack_frame` (frame.rs:369-407): inclusive ranges, smallest and largest. -/
def decodeAck (largest first : Nat) (ranges : List (Nat × Nat)) : Except Err (List (Nat × Nat)) :=
  if largest < first then .error .frameEncoding
  else if ranges ≠ [] ∧ largest < first + 1 then .error .frameEncoding
  else
    match decodeRanges (if ranges = [] then 0 else largest - first - 1) ranges with
    | .error e => .error e
    | .ok out => .ok ((largest - first, largest) :: out)

end Neqo.Acks
