import Verif.Recovery.Rtt
import Verif.Recovery.Cc

/-!
# Model of loss recovery, `neqo-transport/src/recovery/mod.rs`

The model has the three packet number spaces, the probe timeout state, and of the primary path what loss
recovery uses: the round-trip estimate, the MTU and the congestion controller (`path.rs:1010-1110` passes
the calls on).  `epoch` counts changes of the primary path and is not in the code.

Left out: qlog, the pacer, ECN validation (its verdict that congestion was reported is an input), and the
statistics other than those for lost packets.
-/
namespace Neqo.Rec

/-- `LossRecoverySpace` (recovery/mod.rs:120-141). -/
structure Space where
  id : SpaceId
  largestAcked : Option Nat := none
  largestAckedSent : Option Nat := none
  lastEliciting : Option Nat := none
  inFlight : Nat := 0
  pkts : List Pkt := []
  firstOoo : Option Nat := none
  deriving Repr, DecidableEq

/-- `pto_base_time` (recovery/mod.rs:180-208). -/
def Space.ptoBase (s : Space) : Except Err (Option Nat) :=
  if s.inFlight > 0 then
    match s.lastEliciting with
    | some t => .ok (some t)
    | none => .error .panic
  else if s.id = .app then .ok none
  else .ok s.lastEliciting

/-- `LossRecoverySpace::on_packet_sent` (recovery/mod.rs:210-222). -/
def Space.onSent (s : Space) (p : Pkt) : Except Err Space :=
  match track s.pkts p with
  | .error e => .error e
  | .ok ps =>
    .ok { s with
      lastEliciting := if p.eliciting ∨ (s.id ≠ .app ∧ s.lastEliciting = none) then some p.sent else s.lastEliciting
      inFlight := if p.eliciting then s.inFlight + 1 else s.inFlight
      pkts := ps }

/-- `remove_outstanding` (recovery/mod.rs:242-248). -/
def Space.removeOutstanding (s : Space) (n : Nat) : Except Err Space :=
  if s.inFlight ≥ n then .ok { s with inFlight := s.inFlight - n } else .error .panic

/-- The statistics kept about lost packets. -/
structure LStats where
  lost : Nat := 0
  bytesLost : Nat := 0
  lateAck : Nat := 0
  ptoAck : Nat := 0
  deriving Repr, DecidableEq

/-- The statistics of one acknowledged packet (recovery/mod.rs:270-281). -/
def LStats.acked (st : LStats) (p : Pkt) : Except Err LStats :=
  let st := if p.pto then { st with ptoAck := st.ptoAck + 1 } else st
  if p.lost.isSome then
    if st.lost ≥ 1 ∧ st.bytesLost ≥ p.len then
      .ok { st with lateAck := st.lateAck + 1, lost := st.lost - 1, bytesLost := st.bytesLost - p.len }
    else .error .panic
  else .ok st

/-- The loop over acknowledged packets in `remove_acked`, for the statistics. -/
def LStats.ackedAll : LStats → List Pkt → Except Err LStats
  | st, [] => .ok st
  | st, p :: ps =>
    match st.acked p with
    | .error e => .error e
    | .ok st => st.ackedAll ps

/-- `count_lost` (recovery/mod.rs:518-522). -/
def LStats.countLost (st : LStats) (lost : List Pkt) : LStats :=
  { st with lost := st.lost + lost.length, bytesLost := st.bytesLost + (lost.map (·.len)).sum }

/-- `detect_lost_packets` (recovery/mod.rs:312-361). -/
def Space.detectLost (s : Space) (now lossDelay cleanup : Nat) : Except Err (Space × List Pkt) :=
  match removeExpired s.pkts now cleanup with
  | .error e => .error e
  | .ok (ps, n) =>
    match s.removeOutstanding n with
    | .error e => .error e
    | .ok s =>
      match s.largestAcked with
      | none => .ok ({ s with pkts := ps, firstOoo := none }, [])
      | some la =>
        let r := declareLost la now lossDelay ps
        .ok ({ s with pkts := r.1, firstOoo := r.2.2 }, r.2.1)

/-- `PtoState` (recovery/mod.rs:422-430). -/
structure Pto where
  space : SpaceId
  count : Nat
  packets : Nat
  probe : List SpaceId
  deriving Repr, DecidableEq

/-- `MAX_PTO_PACKET_COUNT` (recovery/mod.rs:39). -/
def maxPtoPackets : Nat := 2

/-- The state of loss recovery. -/
structure Sys where
  spaces : SpaceId → Option Space
  pto : Option Pto := none
  confirmed : Option Nat := none
  fastPto : Nat := 100
  stats : LStats := {}
  rtt : Rtt
  cc : Cc
  /-- The other paths. -/
  others : List (Rtt × Cc) := []
  epoch : Nat := 0

/-- Replace one space. -/
def Sys.setSpace (s : Sys) (id : SpaceId) (x : Option Space) : Sys :=
  { s with spaces := fun i => if i = id then x else s.spaces i }

/-- `Loss::new` with the primary path's estimator and controller (recovery/mod.rs:497-507). -/
def Sys.new (fastPto initialRtt mtu : Nat) (alg : Alg) (spurious : Bool) : Sys :=
  { spaces := fun i => some { id := i }, fastPto := fastPto, rtt := Rtt.new initialRtt, cc := Cc.new alg mtu spurious }

/-- `Duration::MAX` in nanoseconds. -/
def maxDuration : Nat := 2 ^ 64 * 1000000000 - 1

/-- `pto_period_inner` (recovery/mod.rs:830-843). -/
def ptoPeriod (base : Nat) (count fastPto : Nat) : Nat :=
  let x := base * (fastPto * 2 ^ Nat.min count 24)
  if x ≤ maxDuration then x / 100 else 3600000000000

/-- `pto_count` (recovery/mod.rs:858-860). -/
def Sys.ptoCount (s : Sys) : Nat :=
  match s.pto with
  | none => 0
  | some p => p.count

/-- `pto_period` (recovery/mod.rs:847-854). -/
def Sys.ptoPeriod (s : Sys) : Nat := Rec.ptoPeriod (s.rtt.pto s.confirmed.isSome) s.ptoCount s.fastPto

/-- `pto_time` (recovery/mod.rs:863-868). -/
def Sys.ptoTime (s : Sys) (id : SpaceId) : Except Err (Option Nat) :=
  match s.spaces id with
  | none => .ok none
  | some sp =>
    match sp.ptoBase with
    | .error e => .error e
    | .ok b => .ok (b.map (· + s.ptoPeriod))

/-- The earlier of two packet number spaces. -/
def SpaceId.min : SpaceId → SpaceId → SpaceId
  | .initial, _ => .initial
  | _, .initial => .initial
  | .handshake, _ => .handshake
  | _, .handshake => .handshake
  | .app, .app => .app

/-- Insert spaces into a set of spaces. -/
def addSpaces (a b : List SpaceId) : List SpaceId := a ++ b.filter fun x => !a.contains x

/-- `fire_pto` with `PtoState::new` and `PtoState::pto` (recovery/mod.rs:433-449, 884-901). -/
def Sys.firePto (s : Sys) (id : SpaceId) (probes : List SpaceId) : Except Err Sys :=
  if probes.contains id then
    match s.pto with
    | some p => .ok { s with pto := some { space := SpaceId.min id p.space, count := p.count + 1, packets := maxPtoPackets, probe := addSpaces p.probe probes } }
    | none => .ok { s with pto := some { space := id, count := 1, packets := maxPtoPackets, probe := probes } }
  else .error .panic

/-- `PtoState::pto_sent` (recovery/mod.rs:469-477). -/
def Pto.sent (p : Pto) (id : SpaceId) : Pto :=
  if p.packets < maxPtoPackets ∧ id ≠ .app then { p with probe := p.probe.filter (· ≠ id) } else p

/-- The congestion controller of the path a packet is sent on sees it (path.rs:1022-1027).  `on` is the
number of another path, none for the primary one. -/
def Sys.pathSent (s : Sys) (p : Pkt) (on : Option Nat) : Sys :=
  match on with
  | none => { s with cc := s.cc.onSent p }
  | some i => { s with others := s.others.modify i fun x => (x.1, x.2.onSent p) }

/-- `Loss::on_packet_sent` (recovery/mod.rs:541-556) with `Path::packet_sent` (path.rs:1045-1050). -/
def Sys.onSent (s : Sys) (p : Pkt) (on : Option Nat) : Except Err Sys :=
  let id := p.pt.space
  let s := { s with pto := s.pto.map (Pto.sent · id) }
  match s.spaces id with
  | none => .ok s
  | some sp =>
    let p := { p with primary := on.isNone, epoch := if on.isNone then some s.epoch else none, lost := none, pto := false }
    match sp.onSent p with
    | .error e => .error e
    | .ok sp => .ok ((s.pathSent p on).setSpace id (some sp))

/-- The guess at the round-trip time made when a packet is discarded (path.rs:1031-1047). -/
def Rtt.discarded (r : Rtt) (p : Pkt) (now : Nat) : Except Err Rtt :=
  match r.first with
  | none => r.update (now - p.sent) 0 .guess now
  | some _ => .ok r

/-- `Path::discard_packet` (path.rs:1053-1075). -/
def Sys.discardPacket (s : Sys) (p : Pkt) (now : Nat) : Except Err Sys :=
  match s.rtt.discarded p now with
  | .error e => .error e
  | .ok rtt =>
    match s.cc.discard p with
    | .error e => .error e
    | .ok cc => .ok { s with rtt := rtt, cc := cc }

/-- Discard a list of packets. -/
def Sys.discardAll : Sys → Nat → List Pkt → Except Err Sys
  | s, _, [] => .ok s
  | s, now, p :: ps =>
    match s.discardPacket p now with
    | .error e => .error e
    | .ok s => s.discardAll now ps

/-- `remove_ignored` (recovery/mod.rs:288-291) for one space. -/
def Space.ignored (s : Space) : Space := { s with inFlight := 0, pkts := [] }

/-- `drop_0rtt` (recovery/mod.rs:525-539). -/
def Sys.drop0rtt (s : Sys) (now : Nat) : Except Err (Sys × List Pkt) :=
  match s.spaces .app with
  | none => .ok (s, [])
  | some sp =>
    match sp.largestAcked with
    | some _ => .ok (s, [])
    | none =>
      match (s.setSpace .app (some sp.ignored)).discardAll now sp.pkts with
      | .error e => .error e
      | .ok s => .ok (s, sp.pkts)

/-- The packets of a space, none if it was dropped. -/
def Sys.pkts (s : Sys) (id : SpaceId) : List Pkt :=
  match s.spaces id with
  | none => []
  | some sp => sp.pkts

/-- `retry` (recovery/mod.rs:720-735). -/
def Sys.retry (s : Sys) (now : Nat) : Except Err (Sys × List Pkt) :=
  let ps := s.pkts .initial ++ s.pkts .handshake ++ s.pkts .app
  let s := { s with pto := none, spaces := fun i => (s.spaces i).map Space.ignored }
  match s.discardAll now ps with
  | .error e => .error e
  | .ok s => .ok (s, ps)

/-- `rtt_sample` (recovery/mod.rs:567-582). -/
def Sys.rttSample (s : Sys) (sent now ackDelay : Nat) : Except Err Sys :=
  let src := if s.confirmed.any (fun t => decide (t < sent)) then Src.confirmed else Src.ack
  if sent ≤ now then
    match s.rtt.update (now - sent) ackDelay src now with
    | .error e => .error e
    | .ok r => .ok { s with rtt := r }
  else .ok s

/-- The part of `on_ack_received` that runs when the largest newly acknowledged packet is the largest so
far (recovery/mod.rs:661-677). -/
def Sys.newLargest (s : Sys) (sp : Space) (top : Pkt) (anyEliciting : Bool) (ackDelay now : Nat) : Except Err (Sys × Space) :=
  if sp.largestAcked.all (fun l => decide (top.pn > l)) then
    let sp := { sp with largestAcked := some top.pn, largestAckedSent := some top.sent }
    if anyEliciting && top.primary then
      match s.rttSample top.sent now ackDelay with
      | .error e => .error e
      | .ok s => .ok (s, sp)
    else .ok (s, sp)
  else .ok (s, sp)

/-- What the environment supplies with an ACK frame. -/
structure AckIn where
  ackDelay : Nat := 0
  /-- ECN validation reports congestion. -/
  ce : Bool := false
  ss : SsIn := {}
  bfi : Nat := 1
  deriving Repr, DecidableEq

/-- `Path::on_packets_acked` (path.rs:1078-1101). -/
def Cc.pathAcked (c : Cc) (acked : List Pkt) (top : Pkt) (now ptoTrue : Nat) (i : AckIn) : Except Err Cc :=
  (if i.ce then c.onCe top else c).onAcked acked now ptoTrue i.ss i.bfi

/-- `on_ack_received` once packets were found to be acknowledged (recovery/mod.rs:655-720).  `sp` is the
space after they were removed. -/
def Sys.ackFound (s : Sys) (id : SpaceId) (sp : Space) (top : Pkt) (acked : List Pkt) (i : AckIn) (now : Nat) : Except Err (Sys × List Pkt × List Pkt) :=
  match s.newLargest sp top (acked.any (·.eliciting)) i.ackDelay now with
  | .error e => .error e
  | .ok (s, sp₁) =>
    match sp₁.detectLost now s.rtt.lossDelay s.ptoPeriod with
    | .error e => .error e
    | .ok (sp₂, lost) =>
      match s.cc.onLost s.rtt.first sp.largestAckedSent (s.rtt.pto s.confirmed.isSome) lost with
      | .error e => .error e
      | .ok cc =>
        match cc.pathAcked acked top now (s.rtt.pto true) i with
        | .error e => .error e
        | .ok cc => .ok ({ s.setSpace id (some sp₂) with stats := s.stats.countLost lost, cc := cc, pto := none }, acked, lost)

/-- `on_ack_received` (recovery/mod.rs:628-716): the packets acknowledged and those found to be lost. -/
def Sys.onAck (s : Sys) (id : SpaceId) (ranges : List (Nat × Nat)) (i : AckIn) (now : Nat) :
    Except Err (Sys × List Pkt × List Pkt) :=
  match s.spaces id with
  | none => .ok (s, [], [])
  | some sp =>
    match takeRanges sp.pkts none ranges with
    | .error e => .error e
    | .ok (ps, acked) =>
      match ({ sp with pkts := ps } : Space).removeOutstanding (countEliciting acked) with
      | .error e => .error e
      | .ok sp =>
        match s.stats.ackedAll acked with
        | .error e => .error e
        | .ok st =>
          match acked with
          | [] => .ok ({ s with stats := st }.setSpace id (some sp), [], [])
          | top :: rest => { s with stats := st }.ackFound id sp top (top :: rest) i now

/-- `confirm` (recovery/mod.rs:737-748). -/
def Sys.confirm (s : Sys) (now : Nat) : Except Err Sys :=
  match s.confirmed with
  | some _ => .error .panic
  | none =>
    let s := { s with confirmed := some now }
    match s.ptoTime .app with
    | .error e => .error e
    | .ok none => .ok s
    | .ok (some t) => if t < now then s.firePto .app [.app] else .ok s

/-- `discard` with `drop_space` (recovery/mod.rs:376-387, 767-788).  Dropping the application space or a
space a second time panics. -/
def Sys.discardSpace (s : Sys) (id : SpaceId) (now : Nat) : Except Err Sys :=
  if id = .app then .error .panic
  else
    match s.spaces id with
    | none => .error .panic
    | some sp =>
      match (s.setSpace id none).discardAll now sp.pkts with
      | .error e => .error e
      | .ok s =>
        let s := { s with pto := none }
        if id = .handshake then s.confirm now else .ok s

/-- `migrate` (recovery/mod.rs:294-298, 761-765) for one space. -/
def Space.migrate (s : Space) : Space := { s with pkts := s.pkts.map fun p => { p with primary := false } }

/-- `Loss::migrate`. -/
def Sys.clearPrimary (s : Sys) : Sys := { s with spaces := fun i => (s.spaces i).map Space.migrate }

/-- A new path (path.rs:600-640), with an initial estimate of its round-trip time and an MTU. -/
def Sys.addPath (s : Sys) (rtt mtu : Nat) : Sys :=
  { s with others := s.others ++ [(Rtt.new rtt, Cc.new s.cc.alg mtu s.cc.spurious)] }

/-- Another path becomes the primary one: `select_primary` (path.rs:175-191) with `set_primary`
(path.rs:671-678), which clears the bytes in flight of the old one. -/
def Sys.switchPath (s : Sys) (i : Nat) : Sys :=
  match s.others[i]? with
  | none => s
  | some x => { s with rtt := x.1, cc := x.2, others := s.others.set i (s.rtt, { s.cc with flight := 0 }), epoch := s.epoch + 1 }

/-- Loss detection for one space on a timeout (recovery/mod.rs:993-1010), for the primary path. -/
def Sys.timeoutSpace (s : Sys) (now : Nat) (id : SpaceId) : Except Err (Sys × List Pkt) :=
  match s.spaces id with
  | none => .ok (s, [])
  | some sp =>
    match sp.detectLost now s.rtt.lossDelay s.ptoPeriod with
    | .error e => .error e
    | .ok (sp, lost) =>
      match s.cc.onLost s.rtt.first sp.largestAckedSent (s.rtt.pto s.confirmed.isSome) lost with
      | .error e => .error e
      | .ok cc => .ok ({ s.setSpace id (some sp) with cc := cc }, lost)

/-- Loss detection for a list of spaces. -/
def Sys.timeoutSpaces : Sys → Nat → List SpaceId → Except Err (Sys × List Pkt)
  | s, _, [] => .ok (s, [])
  | s, now, id :: ids =>
    match s.timeoutSpace now id with
    | .error e => .error e
    | .ok (s, lost) =>
      match s.timeoutSpaces now ids with
      | .error e => .error e
      | .ok (s, more) => .ok (s, lost ++ more)

/-- The packet number spaces in order. -/
def allSpaces : List SpaceId := [.initial, .handshake, .app]

/-- The first loop of `maybe_fire_pto` (recovery/mod.rs:921-943): the spaces that may be probed and those
whose timer has run out. -/
def Sys.ptoScan (s : Sys) (now : Nat) : List SpaceId → Except Err (List SpaceId × List SpaceId)
  | [] => .ok ([], [])
  | id :: ids =>
    match s.ptoTime id with
    | .error e => .error e
    | .ok t =>
      match s.ptoScan now ids with
      | .error e => .error e
      | .ok (allow, due) =>
        match t with
        | none => .ok (allow, due)
        | some t => .ok (id :: allow, if t > now then due else id :: due)

/-- The spaces from which packets are sent again (recovery/mod.rs:931-940). -/
def retransmitSet (due : List SpaceId) : List SpaceId :=
  allSpaces.filter fun i => due.contains i || (decide (i = .initial) && due.contains .handshake)

/-- The second loop of `maybe_fire_pto` (recovery/mod.rs:951-966): collect packets for sending again. -/
def Sys.ptoCollect (cap : Nat) : Sys → Nat → List SpaceId → Sys × List Pkt
  | s, _, [] => (s, [])
  | s, size, id :: ids =>
    match s.spaces id with
    | none => s.ptoCollect cap size ids
    | some sp =>
      let r := ptoTake cap size sp.pkts
      let q := (s.setSpace id (some { sp with pkts := r.1 })).ptoCollect cap r.2.2 ids
      (q.1, r.2.1 ++ q.2)

/-- `maybe_prime_handshake_pto` (recovery/mod.rs:589-625). -/
def Sys.prime (s : Sys) (now : Nat) (hsKeys : Bool) : Sys :=
  match s.pto, s.spaces .initial, s.spaces .handshake with
  | some p, some i, some h =>
    if hsKeys ∧ p.space = .initial ∧ i.largestAcked.isSome ∧ h.lastEliciting = none ∧ h.largestAcked = none then
      s.setSpace .handshake (some { h with lastEliciting := some now })
    else s
  | _, _, _ => s

/-- `maybe_fire_pto` (recovery/mod.rs:907-969). -/
def Sys.maybeFirePto (s : Sys) (now : Nat) (hsKeys : Bool) : Except Err (Sys × List Pkt) :=
  match s.ptoScan now allSpaces with
  | .error e => .error e
  | .ok (allow, due) =>
    match due with
    | [] => .ok (s, [])
    | id :: _ =>
      let r := s.ptoCollect (maxPtoPackets * s.cc.mtu) 0 (retransmitSet due)
      match r.1.firePto id allow with
      | .error e => .error e
      | .ok s => .ok (if id = .initial then s.prime now hsKeys else s, r.2)

/-- `timeout` (recovery/mod.rs:971-1012): the packets declared lost and those whose contents are sent
again because of a probe timeout.  The code returns both in one list. -/
def Sys.onTimeout (s : Sys) (now : Nat) (hsKeys : Bool) : Except Err (Sys × List Pkt × List Pkt) :=
  match s.timeoutSpaces now allSpaces with
  | .error e => .error e
  | .ok (s, lost) =>
    match { s with stats := s.stats.countLost lost }.maybeFirePto now hsKeys with
    | .error e => .error e
    | .ok (s, probes) => .ok (s, lost, probes)

/-- `ACK_ONLY_SIZE_LIMIT` (recovery/mod.rs:37). -/
def ackOnlyLimit : Nat := 256

/-- `SendProfile` (recovery/mod.rs:51-58).  `pto` says that it uses up one of the packets allowed by a
probe timeout. -/
structure Profile where
  limit : Nat
  probe : List SpaceId
  paced : Bool
  pto : Bool
  deriving Repr, DecidableEq

/-- `send_profile` (recovery/mod.rs:1017-1048).  `amp` is the path's anti-amplification limit and `pace`
says that the pacer wants to wait. -/
def Sys.sendProfile (s : Sys) (amp : Nat) (pace : Bool) : Except Err (Sys × Profile) :=
  let usePto := s.pto.any fun p => decide (p.packets > 0)
  if usePto then
    if s.cc.mtu > ackOnlyLimit then
      .ok ({ s with pto := s.pto.map fun p => { p with packets := p.packets - 1 } }, ⟨s.cc.mtu, (s.pto.map (·.probe)).getD [], false, true⟩)
    else .error .panic
  else
    let limit := Nat.min s.cc.avail amp
    if limit > s.cc.mtu then
      if pace && decide (s.cc.flight > 0) then .ok (s, ⟨ackOnlyLimit - 1, [], true, false⟩)
      else .ok (s, ⟨Nat.max (ackOnlyLimit - 1) s.cc.mtu, [], false, false⟩)
    else if s.cc.cur.phase = .recoveryStart then
      if s.cc.mtu > ackOnlyLimit then .ok (s, ⟨s.cc.mtu, allSpaces, false, false⟩) else .error .panic
    else .ok (s, ⟨Nat.max (ackOnlyLimit - 1) limit, [], false, false⟩)

end Neqo.Rec
