import Verif.Lib.SMap
import Verif.Lib.Err
import Verif.Codec.Model

/-!
# Model of `RxStreamOrderer` (`neqo-transport/src/recv_stream.rs:182-562`)

Offsets are `Nat`: the caller bounds every offset by `2^62` (frame decoding
rejects larger ones), so no `u64` addition here overflows.  `Res<()>` errors and
`assert!`s are values of `Err`.
-/
namespace Neqo.Recv
open Neqo.Codec (Bytes)

/-- `RANGE_TARGET` (recv_stream.rs:199). -/
def rangeTarget : Nat := 4096
/-- `MAX_GAPS` (recv_stream.rs:202). -/
def maxGaps : Nat := 4096

/-- `RxStreamOrderer` (recv_stream.rs:185-192). -/
structure Rx where
  ranges : SMap Bytes := []
  retired : Nat := 0
  received : Nat := 0
  end_ : Nat := 0
  deriving Repr, DecidableEq

/-- Exclusive end of a buffered range. -/
def rend (e : Nat × Bytes) : Nat := e.1 + e.2.length

/-- `check_gap_limit` (recv_stream.rs:214-222). -/
def Rx.checkGapLimit (s : Rx) : Except Err Rx :=
  let span := s.end_ - s.retired
  let needed := span / rangeTarget
  if s.ranges.length > maxGaps + needed then .error .protocolViolation else .ok s

/-- `insert_range` (recv_stream.rs:225-228). -/
def Rx.insertRange (s : Rx) (start : Nat) (data : Bytes) : Except Err Rx :=
  Rx.checkGapLimit { s with ranges := s.ranges.insert start data }

/-- The loop over following ranges (recv_stream.rs:357-383): given the ranges at
or after `new_start`, returns those that survive and the number of bytes of the
new data to add.  Ranges that the new data spans entirely are removed. -/
def scanNext (newEnd len : Nat) : SMap Bytes → SMap Bytes × Nat
  | [] => ([], len)
  | (s, d) :: rest =>
    let overlap := newEnd - s
    if overlap = 0 then ((s, d) :: rest, len)
    else if s + d.length ≥ newEnd then ((s, d) :: rest, len - overlap)
    else scanNext newEnd len rest

/-- The following range, if it is to be absorbed (recv_stream.rs:396-403). -/
def absorbNext (m : SMap Bytes) (addEnd len : Nat) : Option Bytes :=
  match m.find addEnd with
  | some n => if len + n.length ≤ rangeTarget then some n else none
  | none => none

/-- Second half of `inbound_frame` (recv_stream.rs:333-413), after the start has
been adjusted for the preceding range.  `extend` is the key and length of the
preceding range when it may be extended.  The guard at 334-338 only avoids the
loop when it would iterate over nothing. -/
def Rx.addRange (s : Rx) (newStart newEnd : Nat) (newData : Bytes)
    (extend : Option (Nat × Nat)) : Except Err Rx :=
  let (rest, addLen) := scanNext newEnd newData.length (s.ranges.atOrAfter newStart)
  let ranges := s.ranges.below newStart ++ rest
  let toAdd := newData.take addLen
  if toAdd = [] then .ok { s with ranges := ranges }
  else
    let s1 : Rx := { s with ranges := ranges, received := s.received + toAdd.length,
                            end_ := max s.end_ newEnd }
    match extend with
    | some (prevStart, prevLen) =>
      let addEnd := newStart + toAdd.length
      let next := absorbNext s1.ranges addEnd (prevLen + toAdd.length)
      let ranges1 := if next.isSome then s1.ranges.erase addEnd else s1.ranges
      let ranges2 := ranges1.modify prevStart (fun b => b ++ toAdd ++ (next.getD []))
      .ok { s1 with ranges := ranges2 }
    | none => s1.insertRange newStart toAdd

/-- `inbound_frame` (recv_stream.rs:244-414). -/
def Rx.inboundFrame (s : Rx) (start : Nat) (data : Bytes) : Except Err Rx :=
  let newEnd := start + data.length
  if newEnd ≤ s.retired then .ok s
  else
    let newData := if start < s.retired then data.drop (s.retired - start) else data
    let newStart := if start < s.retired then s.retired else start
    if newData = [] then .ok s
    else if newStart ≥ s.end_ then
      let adjacent := newStart = s.end_
      let s1 : Rx := { s with received := s.received + newData.length, end_ := newEnd }
      match s.ranges.getLast? with
      | some (k, v) =>
        if adjacent ∧ v.length < rangeTarget then
          .ok { s1 with ranges := s.ranges.dropLast ++ [(k, v ++ newData)] }
        else s1.insertRange newStart newData
      | none => s1.insertRange newStart newData
    else
      match (s.ranges.upto newStart).getLast? with
      | some (prevStart, prevVec) =>
        let prevLen := prevVec.length
        let prevEnd := prevStart + prevLen
        if newEnd > prevEnd then
          let overlap := prevEnd - newStart
          let newStart' := newStart + overlap
          let newData' := newData.drop overlap
          let extend := if prevLen < rangeTarget ∧ prevEnd = newStart'
            then some (prevStart, prevLen) else none
          s.addRange newStart' newEnd newData' extend
        else .ok s
      | none => s.addRange newStart newEnd newData none

/-- `data_ready` (recv_stream.rs:431-436). -/
def Rx.dataReady (s : Rx) : Bool :=
  match s.ranges with
  | [] => false
  | (start, _) :: _ => start ≤ s.retired

/-- `bytes_ready` (recv_stream.rs:439-462): the fold over the prefix of ranges. -/
def bytesReadyGo (retired : Nat) : SMap Bytes → Nat → Nat
  | [], _ => 0
  | (start, d) :: rest, prevEnd =>
    let dataLen := d.length - (retired - start)
    if start ≤ prevEnd then dataLen + bytesReadyGo retired rest (prevEnd + dataLen) else 0

def Rx.bytesReady (s : Rx) : Nat := bytesReadyGo s.retired s.ranges s.retired

/-- The loop of `read` (recv_stream.rs:514-554): bytes copied, new `retired`, and
the ranges kept (`none`: the loop ran to the end). -/
def readLoop : SMap Bytes → Nat → Nat → Except Err (Bytes × Nat × Option (SMap Bytes))
  | [], retired, _ => .ok ([], retired, none)
  | (start, d) :: rest, retired, space =>
    if retired ≥ start then
      let off := retired - start
      if d.length < off then .error .panic
      else
        let available := d.length - off
        if available > space then
          .ok ((d.drop off).take space, retired + space, some ((start, d) :: rest))
        else
          match readLoop rest (retired + available) (space - available) with
          | .error e => .error e
          | .ok (out, ret, keep) => .ok (d.drop off ++ out, ret, keep)
    else .ok ([], retired, some ((start, d) :: rest))

/-- `read` (recv_stream.rs:514-554) into a buffer of `n` bytes; returns the bytes
copied. -/
def Rx.read (s : Rx) (n : Nat) : Except Err (Rx × Bytes) :=
  match readLoop s.ranges s.retired n with
  | .error e => .error e
  | .ok (out, ret, some keep) => .ok ({ s with ranges := keep, retired := ret }, out)
  | .ok (out, ret, none) => .ok ({ s with ranges := [], retired := ret, end_ := ret }, out)

/-- `read_to_end` (recv_stream.rs:557-561): what is appended to the vector. -/
def Rx.readToEnd (s : Rx) : Except Err (Rx × Bytes) := s.read s.bytesReady

/-- `discard_after` (recv_stream.rs:486-502). -/
def Rx.discardAfter (s : Rx) (offset : Nat) : Rx :=
  let kept := s.ranges.below offset
  match kept.getLast? with
  | some (start, data) =>
    let data' := data.take (offset - start)
    { s with ranges := kept.dropLast ++ [(start, data')], end_ := start + data'.length }
  | none => { s with ranges := kept, end_ := s.retired }

end Neqo.Recv
