import Verif.Lib.Basic
import Verif.Lib.Err

/-!
# Model of `neqo-transport/src/recovery/sent.rs`: packets that were sent and are being tracked

The recovery tokens of a packet (what its frames were) are an opaque list of numbers.
-/
namespace Neqo.Rec

/-- `PacketNumberSpace` (tracking.rs:33-40). -/
inductive SpaceId where
  | initial | handshake | app
  deriving Repr, DecidableEq

/-- The types of packet that carry packet numbers (`packet::Type`). -/
inductive PType where
  | initial | handshake | zeroRtt | short
  deriving Repr, DecidableEq

/-- `PacketNumberSpace::from(packet::Type)` (tracking.rs:52-65). -/
def PType.space : PType → SpaceId
  | .initial => .initial
  | .handshake => .handshake
  | .zeroRtt => .app
  | .short => .app

/-- `sent::Packet` (sent.rs:32-45).  `epoch` is not in the code: for a packet sent on the primary path it
records how often that path had changed. -/
structure Pkt where
  pt : PType
  pn : Nat
  eliciting : Bool
  sent : Nat
  len : Nat
  tokens : List Nat := []
  pmtud : Bool := false
  primary : Bool := true
  lost : Option Nat := none
  pto : Bool := false
  epoch : Option Nat := none
  deriving Repr, DecidableEq

/-- `cc_outstanding` (sent.rs:158-160). -/
def Pkt.outstanding (p : Pkt) : Bool := p.eliciting && p.primary && p.lost.isNone

/-- `cc_in_flight` (sent.rs:164-166). -/
def Pkt.inFlight (p : Pkt) : Bool := p.eliciting && p.primary

/-- `expired` (sent.rs:182-185). -/
def Pkt.expired (p : Pkt) (now period : Nat) : Bool :=
  match p.lost with
  | none => false
  | some t => decide (t + period ≤ now)

/-- Whether `pto` (sent.rs:202-209) hands the packet out. -/
def Pkt.ptoReady (p : Pkt) : Bool := !(p.pto || p.lost.isSome)

/-- `Packets::track` (sent.rs:230-236). -/
def track (ps : List Pkt) (p : Pkt) : Except Err (List Pkt) :=
  match ps.getLast? with
  | none => .ok (ps ++ [p])
  | some l => if l.pn < p.pn then .ok (ps ++ [p]) else .error .panic

/-- One round of the loop in `take_ranges` (sent.rs:261-275): the packets that stay and those taken, the
largest first. -/
def takeRange (ps : List Pkt) (lo hi : Nat) : Except Err (List Pkt × List Pkt) :=
  let s := (ps.takeWhile fun p => decide (p.pn < lo)).length
  let e := (ps.takeWhile fun p => decide (p.pn ≤ hi)).length
  if s = e then .ok (ps, [])
  else if e < s then .error .panic
  else .ok (ps.take s ++ ps.drop e, ((ps.take e).drop s).reverse)

/-- `Packets::take_ranges` (sent.rs:246-275).  Ranges are `(low, high)`, highest first. -/
def takeRanges : List Pkt → Option Nat → List (Nat × Nat) → Except Err (List Pkt × List Pkt)
  | ps, _, [] => .ok (ps, [])
  | ps, prev, (lo, hi) :: rs =>
    if prev.all (fun s => decide (s > hi)) then
      match takeRange ps lo hi with
      | .error e => .error e
      | .ok (ps, got) =>
        match takeRanges ps (some lo) rs with
        | .error e => .error e
        | .ok (ps, more) => .ok (ps, got ++ more)
    else .error .panic

/-- The number of ack-eliciting packets in a list. -/
def countEliciting (ps : List Pkt) : Nat := (ps.filter (·.eliciting)).length

/-- `Packets::remove_expired` (sent.rs:284-294): what stays and how many ack-eliciting ones were
removed. -/
def removeExpired (ps : List Pkt) (now cd : Nat) : Except Err (List Pkt × Nat) :=
  match ps with
  | [] => .ok ([], 0)
  | p :: _ =>
    if p.expired now cd then
      let keep := ps.dropWhile (·.expired now cd)
      if keep.all (fun q => !q.expired now cd) then .ok (keep, countEliciting (ps.takeWhile (·.expired now cd)))
      else .error .panic
    else .ok (ps, 0)

/-- `PACKET_THRESHOLD` (recovery/mod.rs:34). -/
def packetThreshold : Nat := 3

/-- The loop of `detect_lost_packets` (recovery/mod.rs:312-361) for packets below the largest
acknowledged number `la`: the tracked packets afterwards, the ones newly declared lost, and the time the
first packet that is not lost was sent. -/
def declareLost (la now delay : Nat) : List Pkt → List Pkt × List Pkt × Option Nat
  | [] => ([], [], none)
  | p :: ps =>
    if p.pn < la then
      if p.sent + delay ≤ now ∨ p.pn + packetThreshold ≤ la then
        let r := declareLost la now delay ps
        match p.lost with
        | some _ => (p :: r.1, r.2.1, r.2.2)
        | none => ({ p with lost := some now } :: r.1, { p with lost := some now } :: r.2.1, r.2.2)
      else (p :: ps, [], some p.sent)
    else (p :: ps, [], none)

/-- The packets that `pto_packets` yields while `take_while` asks for more (recovery/mod.rs:170-177 and
948-960).  `size` is the running total and `cap` the limit: the packets afterwards, those handed out and
the new total.  The packet at which `take_while` stops has already been marked. -/
def ptoTake (cap : Nat) : Nat → List Pkt → List Pkt × List Pkt × Nat
  | size, [] => ([], [], size)
  | size, p :: ps =>
    if p.ptoReady then
      let p' := { p with pto := true }
      if size + p.len ≤ cap then
        let r := ptoTake cap (size + p.len) ps
        (p' :: r.1, p' :: r.2.1, r.2.2)
      else (p' :: ps, [], size + p.len)
    else
      let r := ptoTake cap size ps
      (p :: r.1, r.2.1, r.2.2)

end Neqo.Rec
