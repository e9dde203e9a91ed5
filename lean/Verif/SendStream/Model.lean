import Verif.SendStream.TxModel

/-!
# Model of `SendStream` (`neqo-transport/src/send_stream.rs:593-1736`)

The packet builder is represented by the number of bytes that remain in it.  The connection's
flow control, shared by all streams in the source, is passed in and out.  Events go to
`ConnectionEvents` in the source; here they are collected in the stream.
-/
namespace Neqo.Send
open Neqo.Codec (Bytes varintLen)
open Neqo.Flow (SFc)

/-- `Encoder::varint_len`, which panics above `2^62-1`. -/
def vlen (v : Nat) : Except Err Nat :=
  match varintLen v with
  | some n => .ok n
  | none => .error .panic

/-- `values.iter().map(varint_len).sum()` (packet/mod.rs:456-460). -/
def vlens : List Nat → Except Err Nat
  | [] => .ok 0
  | v :: vs =>
    match vlen v with
    | .error e => .error e
    | .ok a =>
      match vlens vs with
      | .error e => .error e
      | .ok b => .ok (a + b)

/-- `TransmissionPriority`; only equality matters here. -/
abbrev Prio := Nat

/-- `packet::Builder::MINIMUM_FRAME_SIZE` (packet/mod.rs:145). -/
def minFrame : Nat := 2

/-- `State` (send_stream.rs:595-647). -/
inductive State where
  | ready (fc : SFc)
  | send (fc : SFc) (tx : Tx) (committed : Nat)
  | dataSent (tx : Tx) (finSent finAcked : Bool) (committed : Nat)
  | dataRecvd (retired written : Nat)
  | resetSent (err final reliable : Nat) (prio : Option Prio) (finalRetired finalWritten : Nat)
  | resetReliable (tx : Tx) (err final reliable : Nat) (prio : Option Prio) (resetAcked : Bool)
  | resetRecvd (finalRetired finalWritten : Nat)
  deriving Repr, DecidableEq

/-- Events for the application. -/
inductive Ev where
  | writable
  | complete
  deriving Repr, DecidableEq

/-- Frames a stream writes. -/
inductive Frame where
  /-- STREAM; `fill` means without a length field. -/
  | stream (off : Nat) (data : Bytes) (fin fill : Bool)
  | reset (err final : Nat)
  | resetAt (err final reliable : Nat)
  | blocked (limit : Nat)
  deriving Repr, DecidableEq

/-- `SendStream` (send_stream.rs:728-741), without what only scheduling uses. -/
structure Stream where
  id : Nat
  state : State
  prio : Prio := 0
  effPrio : Prio := 1
  retransOff : Nat := 0
  bytesSent : Nat := 0
  watermark : Nat := 1
  events : List Ev := []
  deriving Repr, DecidableEq

/-- `Stream::avail` (send_stream.rs:1405-1414) with `State::tx_avail` (send_stream.rs:662-673). -/
def Stream.avail (s : Stream) (conn : SFc) : Except Err Nat :=
  match s.state with
  | .ready fc => .ok (min (min fc.available conn.available) txMax)
  | .send fc tx _ =>
    match tx.avail with
    | .ok a => .ok (min (min fc.available conn.available) a)
    | .error e => .error e
  | _ => .ok 0

/-- `SendStream::new` (send_stream.rs:744-770). -/
def Stream.new (id maxStreamData : Nat) (conn : SFc) : Stream :=
  let s : Stream := { id := id, state := .ready { limit := maxStreamData } }
  if min (min maxStreamData conn.available) txMax > 0 then { s with events := [.writable] } else s

/-- `maybe_emit_writable_event` (send_stream.rs:1720-1735). -/
def Stream.maybeWritable (s : Stream) (conn : SFc) (previous current : Nat) : Except Err Stream :=
  match s.avail conn with
  | .error e => .error e
  | .ok a =>
    if s.watermark < previous ∨ current < s.watermark ∨ a < s.watermark then .ok s
    else .ok { s with events := s.events ++ [.writable] }

/-- `set_max_stream_data` (send_stream.rs:1424-1432). -/
def Stream.setMaxStreamData (s : Stream) (conn : SFc) (limit : Nat) : Except Err Stream :=
  let go (fc : SFc) (rebuild : SFc → State) : Except Err Stream :=
    let previous := fc.available
    match fc.update limit with
    | (fc', some current) => ({ s with state := rebuild fc' }).maybeWritable conn previous current
    | (fc', none) => .ok { s with state := rebuild fc' }
  match s.state with
  | .ready fc => go fc .ready
  | .send fc tx c => go fc (fun fc' => .send fc' tx c)
  | _ => .ok s

/-- `fc.blocked()` when there is too little credit (send_stream.rs:1448-1458, one of the two). -/
def blockedIf (fc : SFc) (needed : Nat) : SFc := if fc.available ≤ needed then fc.blocked else fc

/-- `send_blocked_if_space_needed` (send_stream.rs:1454-1464). -/
def Stream.blockedIfNeeded (s : Stream) (conn : SFc) (needed : Nat) : Stream × SFc :=
  match s.state with
  | .ready fc => ({ s with state := .ready (blockedIf fc needed) }, blockedIf conn needed)
  | .send fc tx c => ({ s with state := .send (blockedIf fc needed) tx c }, blockedIf conn needed)
  | _ => (s, conn)

/-- What `send` returns. -/
inductive SendRes where
  | wrote (n : Nat)
  | err (e : Err)
  deriving Repr, DecidableEq

/-- `Ready` becomes `Send` on the first write (send_stream.rs:1467-1476). -/
def Stream.toSend (s : Stream) : Stream :=
  match s.state with
  | .ready fc => { s with state := .send fc {} 0 }
  | _ => s

/-- The end of `send_internal` (send_stream.rs:1497-1511). -/
def Stream.accept (s : Stream) (conn : SFc) (data : Bytes) : Except Err (Stream × SFc × SendRes) :=
  match s.state with
  | .send fc tx c =>
    match tx.send data with
    | .error e => .error e
    | .ok (tx', n) =>
      match fc.consume n with
      | .error e => .error e
      | .ok fc' =>
        match conn.consume n with
        | .error e => .error e
        | .ok conn' => .ok ({ s with state := .send fc' tx' c }, conn', .wrote n)
  | _ => .ok (s, conn, .err .finalSize)

/-- `send_internal` (send_stream.rs:1466-1515). -/
def Stream.sendInternal (s : Stream) (conn : SFc) (data : Bytes) (atomic : Bool) :
    Except Err (Stream × SFc × SendRes) :=
  if data = [] then .ok (s, conn, .err .invalidInput)
  else
    let s := s.toSend
    match s.state with
    | .send _ _ _ =>
      match s.avail conn with
      | .error e => .error e
      | .ok a =>
        if a = 0 then .ok (s, conn, .wrote 0)
        else if a < data.length then
          if atomic then
            let r := s.blockedIfNeeded conn data.length
            .ok (r.1, r.2, .wrote 0)
          else s.accept conn (data.take a)
        else s.accept conn data
    | _ => .ok (s, conn, .err .finalSize)

/-- `close` (send_stream.rs:1517-1549). -/
def Stream.close (s : Stream) : Stream :=
  match s.state with
  | .ready _ => { s with state := .dataSent {} false false 0 }
  | .send _ tx c => { s with state := .dataSent tx false false c }
  | _ => s

/-- `commit` (send_stream.rs:1558-1580). -/
def Stream.commit (s : Stream) : Stream × Option Err :=
  match s.state with
  | .ready _ | .dataRecvd _ _ => (s, none)
  | .send fc tx _ => ({ s with state := .send fc tx tx.used }, none)
  | .dataSent tx fs fa _ => ({ s with state := .dataSent tx fs fa tx.used }, none)
  | _ => (s, some .streamState)

/-- `make_reset_state` (send_stream.rs:1593-1626). -/
def makeReset (err : Nat) (prio : Prio) (tx : Tx) (final committed : Nat) : State :=
  let reliable := min committed final
  if reliable = 0 ∨ tx.retired ≥ reliable then
    .resetSent err final reliable (some prio) tx.retired tx.buf.length
  else .resetReliable tx err final reliable (some prio) false

/-- `reset` (send_stream.rs:1590-1664). -/
def Stream.reset (s : Stream) (err : Nat) : Stream :=
  match s.state with
  | .ready fc => { s with state := .resetSent err fc.used 0 (some s.prio) 0 0 }
  | .send fc tx c => { s with state := makeReset err s.prio tx fc.used c }
  | .dataSent tx _ _ c => { s with state := makeReset err s.prio tx tx.used c }
  | _ => s

/-- `drop_commitment` (send_stream.rs:1675-1713). -/
def Stream.dropCommitment (s : Stream) : Stream :=
  match s.state with
  | .send fc tx _ => { s with state := .send fc tx 0 }
  | .dataSent tx fs fa _ => { s with state := .dataSent tx fs fa 0 }
  | .resetReliable tx err final _ prio acked =>
    if acked then { s with state := .resetRecvd tx.retired tx.buf.length }
    else { s with state := .resetSent err final 0 prio tx.retired tx.buf.length }
  | _ => s

/-- `reset_acked` (send_stream.rs:1141-1181). -/
def Stream.resetAcked (s : Stream) : Stream :=
  match s.state with
  | .resetSent _ _ _ _ fr fw => { s with state := .resetRecvd fr fw }
  | .resetReliable tx err final reliable prio _ =>
    if tx.retired ≥ reliable then { s with state := .resetRecvd tx.retired tx.buf.length }
    else { s with state := .resetReliable tx err final reliable prio true }
  | _ => s

/-- `reset_lost` (send_stream.rs:1183-1196). -/
def Stream.resetLost (s : Stream) : Except Err Stream :=
  match s.state with
  | .resetSent err final reliable _ fr fw =>
    .ok { s with state := .resetSent err final reliable (some s.effPrio) fr fw }
  | .resetReliable tx err final reliable _ acked =>
    .ok { s with state := .resetReliable tx err final reliable (some s.effPrio) acked }
  | .resetRecvd _ _ => .ok s
  | _ => .error .panic     -- `unreachable!()`

/-- `blocked_lost` (send_stream.rs:1262-1268). -/
def Stream.blockedLost (s : Stream) (limit : Nat) : Stream :=
  match s.state with
  | .ready fc => { s with state := .ready (fc.frameLost limit) }
  | .send fc tx c => { s with state := .send (fc.frameLost limit) tx c }
  | _ => s

/-- `mark_as_acked` (send_stream.rs:1309-1374). -/
def Stream.markAcked (s : Stream) (conn : SFc) (off len : Nat) (fin : Bool) : Except Err Stream :=
  match s.state with
  | .send fc tx c =>
    match tx.avail with
    | .error e => .error e
    | .ok previous =>
      match tx.markAcked off len with
      | .error e => .error e
      | .ok tx' =>
        match tx'.avail with
        | .error e => .error e
        | .ok current => ({ s with state := .send fc tx' c }).maybeWritable conn previous current
  | .dataSent tx fs fa c =>
    match tx.markAcked off len with
    | .error e => .error e
    | .ok tx' =>
      let fa' := fa || fin
      if fa' = true ∧ tx'.buf.length = 0 then
        .ok { s with state := .dataRecvd tx'.retired tx'.buf.length, events := s.events ++ [.complete] }
      else .ok { s with state := .dataSent tx' fs fa' c }
  | .resetReliable tx err final reliable prio acked =>
    match tx.markAcked off len with
    | .error e => .error e
    | .ok tx' =>
      if tx'.retired ≥ reliable then
        if acked then .ok { s with state := .resetRecvd tx'.retired tx'.buf.length }
        else .ok { s with state := .resetSent err final reliable prio tx'.retired tx'.buf.length }
      else .ok { s with state := .resetReliable tx' err final reliable prio acked }
  | _ => .ok s

/-- `State::tx_buf_mut` (send_stream.rs:650-660): apply a function to the buffer, if there is one. -/
def State.onTx (st : State) (f : Tx → Except Err Tx) : Except Err State :=
  match st with
  | .send fc tx c =>
    match f tx with
    | .ok tx' => .ok (.send fc tx' c)
    | .error e => .error e
  | .dataSent tx fs fa c =>
    match f tx with
    | .ok tx' => .ok (.dataSent tx' fs fa c)
    | .error e => .error e
  | .resetReliable tx err final reliable prio acked =>
    match f tx with
    | .ok tx' => .ok (.resetReliable tx' err final reliable prio acked)
    | .error e => .error e
  | st => .ok st

/-- `if fin … *fin_sent = *fin_acked` (send_stream.rs:1388-1397). -/
def State.finLost (st : State) (fin : Bool) : State :=
  match st with
  | .dataSent tx fs fa c => .dataSent tx (if fin then fa else fs) fa c
  | st => st

/-- `mark_as_lost` (send_stream.rs:1381-1400). -/
def Stream.markLost (s : Stream) (off len : Nat) (fin : Bool) : Except Err Stream :=
  match s.state.onTx (fun tx => tx.markLost off len) with
  | .error e => .error e
  | .ok st => .ok { s with state := st.finLost fin, retransOff := max s.retransOff (off + len) }

/-- `if fin … *fin_sent = true` (send_stream.rs:1300-1302). -/
def State.finSent (st : State) (fin : Bool) : State :=
  match st with
  | .dataSent tx fs fa c => .dataSent tx (fs || fin) fa c
  | st => st

/-- `mark_as_sent` (send_stream.rs:1291-1302).  `send_blocked_if_space_needed` is only called when
there is a buffer; without one it does nothing for the states that have no `fc`, and STREAM frames
are never written in `Ready`. -/
def Stream.markSent (s : Stream) (conn : SFc) (off len : Nat) (fin : Bool) : Except Err (Stream × SFc) :=
  match s.state.onTx (fun tx => tx.markSent off len) with
  | .error e => .error e
  | .ok st =>
    let r := ({ s with state := st, bytesSent := max s.bytesSent (off + len) } : Stream).blockedIfNeeded conn 0
    .ok ({ r.1 with state := r.1.state.finSent fin }, r.2)

/-- Cut data at `limit` (send_stream.rs:951-958 and 998-1003): nothing at or after it is sent. -/
def cutAt (limit off : Nat) (data : Bytes) : Option (Nat × Bytes) :=
  if limit > off then some (off, data.take (min (limit - off) data.length)) else none

/-- The limit on retransmitted or committed data after a reliable reset (send_stream.rs:990-995). -/
def Stream.relLimit (s : Stream) (reliable : Nat) (retransOnly : Bool) : Nat :=
  if retransOnly then min s.retransOff reliable else reliable

/-- `has_next_bytes` (send_stream.rs:932-964). -/
def Stream.hasNext (s : Stream) (retransOnly : Bool) : Bool :=
  match s.state with
  | .send _ tx _ => if retransOnly then tx.hasNextBefore s.retransOff else tx.hasNext
  | .dataSent tx finSent _ _ => tx.hasNext || !finSent
  | .resetReliable tx _ _ reliable _ _ => tx.hasNextBefore (s.relLimit reliable retransOnly)
  | _ => false

/-- `next_bytes` (send_stream.rs:969-1032).  It may fill the cache in the tracker. -/
def Stream.nextBytes (s : Stream) (split : Nat) (retransOnly : Bool) :
    Except Err (Stream × Option (Nat × Bytes)) :=
  match s.state with
  | .send fc tx c =>
    match tx.next split with
    | .error e => .error e
    | .ok (tx', r) =>
      .ok ({ s with state := .send fc tx' c },
        match r with
        | none => none
        | some (off, data) => if retransOnly then cutAt s.retransOff off data else some (off, data))
  | .dataSent tx fs fa c =>
    match tx.next split with
    | .error e => .error e
    | .ok (tx', r) =>
      .ok ({ s with state := .dataSent tx' fs fa c },
        match r with
        | some b => some b
        | none => if fs then none else some (tx.used, []))
  | .resetReliable tx err final reliable prio acked =>
    match tx.next split with
    | .error e => .error e
    | .ok (tx', r) =>
      .ok ({ s with state := .resetReliable tx' err final reliable prio acked },
        match r with
        | none => none
        | some (off, data) => cutAt (s.relLimit reliable retransOnly) off data)
  | _ => .ok (s, none)

/-- `length_and_fill` (send_stream.rs:1036-1054). -/
def lengthAndFill (dataLen space : Nat) : Except Err (Nat × Bool) :=
  if dataLen ≥ space then .ok (space, true)
  else
    match vlen (min (space - 1) dataLen) with
    | .error e => .error e
    | .ok lengthLen => .ok (dataLen, decide (dataLen + lengthLen + minFrame > space))

/-- Whether a packet at this priority carries stream data, and if so whether only retransmissions
(send_stream.rs:1049-1055 and 806-812). -/
def Stream.mode (s : Stream) (p : Prio) : Option Bool :=
  if p = s.prio then some false else if p = s.effPrio then some true else none

/-- Where the fin goes: only in `DataSent` (send_stream.rs:1081-1084). -/
def State.finOffset : State → Option Nat
  | .dataSent tx _ _ _ => some tx.used
  | _ => none

/-- Size of the STREAM frame header without the length field (send_stream.rs:1086-1092). -/
def streamOverhead (id off : Nat) : Except Err Nat :=
  match vlen id with
  | .error e => .error e
  | .ok a =>
    if off > 0 then
      match vlen off with
      | .error e => .error e
      | .ok b => .ok (1 + a + b)
    else .ok (1 + a)

/-- The token kept for a STREAM frame. -/
structure Tok where
  off : Nat
  len : Nat
  fin : Bool
  deriving Repr, DecidableEq

/-- What writing into a packet did: room left, frames written. -/
structure Wrote where
  rem : Nat
  frames : List Frame := []
  deriving Repr, DecidableEq

/-- The second half of `write_stream_frame` (send_stream.rs:1085-1133), given what to send.
`encode_vvec` puts the length of the data before it as a varint; `mark_full` leaves no room. -/
def Stream.writeData (s : Stream) (conn : SFc) (finOff : Option Nat) (rem off : Nat) (data : Bytes) :
    Except Err (Stream × SFc × Wrote) :=
  match streamOverhead s.id off with
  | .error e => .error e
  | .ok overhead =>
    if overhead > rem then .ok (s, conn, ⟨rem, []⟩)
    else
      match lengthAndFill data.length (rem - overhead) with
      | .error e => .error e
      | .ok (length, fill) =>
        let fin := finOff == some (off + length)
        if length = 0 ∧ fin = false then .ok (s, conn, ⟨rem, []⟩)
        else
          match (if fill then .ok 0 else vlen length : Except Err Nat) with
          | .error e => .error e
          | .ok ll =>
            let rem' := if fill then 0 else rem - (overhead + ll + length)
            match s.markSent conn off length fin with
            | .error e => .error e
            | .ok (s', conn') => .ok (s', conn', ⟨rem', [.stream off (data.take length) fin fill]⟩)

/-- `write_stream_frame` (send_stream.rs:1062-1134). -/
def Stream.writeStream (s : Stream) (conn : SFc) (p : Prio) (rem split : Nat) :
    Except Err (Stream × SFc × Wrote) :=
  match s.mode p with
  | none => .ok (s, conn, ⟨rem, []⟩)
  | some retrans =>
    match s.nextBytes split retrans with
    | .error e => .error e
    | .ok (s', none) => .ok (s', conn, ⟨rem, []⟩)
    | .ok (s', some (off, data)) => s'.writeData conn s.state.finOffset rem off data

/-- The values of a RESET_STREAM or RESET_STREAM_AT frame: types 0x04 and 0x24
(send_stream.rs:1240-1256, frame.rs). -/
def resetFrame (err final reliable : Nat) : Frame :=
  if reliable = 0 then .reset err final else .resetAt err final reliable

def resetValues (id err final reliable : Nat) : List Nat :=
  if reliable = 0 then [0x04, id, err, final] else [0x24, id, err, final, reliable]

/-- `write_reset_frame` (send_stream.rs:1203-1260). -/
def Stream.writeReset (s : Stream) (p : Prio) (rem : Nat) : Except Err (Stream × Wrote × Bool) :=
  match s.state with
  | .resetSent err final reliable prio fr fw =>
    if prio ≠ some p then .ok (s, ⟨rem, []⟩, false)
    else
      match vlens (resetValues s.id err final reliable) with
      | .error e => .error e
      | .ok n =>
        if n ≤ rem then
          .ok ({ s with state := .resetSent err final reliable none fr fw },
            ⟨rem - n, [resetFrame err final reliable]⟩, true)
        else .ok (s, ⟨rem, []⟩, false)
  | .resetReliable tx err final reliable prio acked =>
    if prio ≠ some p then .ok (s, ⟨rem, []⟩, false)
    else
      match vlens (resetValues s.id err final reliable) with
      | .error e => .error e
      | .ok n =>
        if n ≤ rem then
          .ok ({ s with state := .resetReliable tx err final reliable none acked },
            ⟨rem - n, [resetFrame err final reliable]⟩, false)
        else .ok (s, ⟨rem, []⟩, false)
  | _ => .ok (s, ⟨rem, []⟩, false)

/-- STREAM_DATA_BLOCKED of one flow control (fc.rs:189-211), type 0x15. -/
def writeFc (fc : SFc) (id rem : Nat) : Except Err (SFc × Wrote) :=
  match fc.blockedNeeded with
  | none => .ok (fc, ⟨rem, []⟩)
  | some l =>
    match vlens [0x15, id, l] with
    | .error e => .error e
    | .ok n =>
      if n ≤ rem then .ok (fc.blockedSent, ⟨rem - n, [.blocked l]⟩) else .ok (fc, ⟨rem, []⟩)

/-- `write_blocked_frame` (send_stream.rs:1271-1284). -/
def Stream.writeBlocked (s : Stream) (p : Prio) (rem : Nat) : Except Err (Stream × Wrote) :=
  if p = s.prio then
    match s.state with
    | .ready fc =>
      match writeFc fc s.id rem with
      | .error e => .error e
      | .ok (fc', w) => .ok ({ s with state := .ready fc' }, w)
    | .send fc tx c =>
      match writeFc fc s.id rem with
      | .error e => .error e
      | .ok (fc', w) => .ok ({ s with state := .send fc' tx c }, w)
    | _ => .ok (s, ⟨rem, []⟩)
  else .ok (s, ⟨rem, []⟩)

/-- `write_frames` (send_stream.rs:813-831).  `Builder::is_full` (packet/mod.rs:334-337) is
`remaining < 2`. -/
def Stream.writeFrames (s : Stream) (conn : SFc) (p : Prio) (rem split : Nat) :
    Except Err (Stream × SFc × Wrote) :=
  match s.writeReset p rem with
  | .error e => .error e
  | .ok (s1, w1, true) => .ok (s1, conn, w1)
  | .ok (s1, w1, false) =>
    match s1.writeBlocked p w1.rem with
    | .error e => .error e
    | .ok (s2, w2) =>
      if w2.rem < minFrame then .ok (s2, conn, ⟨w2.rem, w1.frames ++ w2.frames⟩)
      else
        match s2.writeStream conn p w2.rem split with
        | .error e => .error e
        | .ok (s3, conn', w3) => .ok (s3, conn', ⟨w3.rem, w1.frames ++ w2.frames ++ w3.frames⟩)

/-- `has_data_at` (send_stream.rs:777-808). -/
def Stream.hasDataAt (s : Stream) (p : Prio) : Bool :=
  let rest : Bool :=
    match s.mode p with
    | none => false
    | some retrans => s.hasNext retrans
  let withBlocked (fc : SFc) : Bool := (decide (p = s.prio) && fc.isBlocked) || rest
  match s.state with
  | .resetSent _ _ _ prio _ _ => decide (prio = some p)
  | .resetReliable _ _ _ _ prio _ => decide (prio = some p) || rest
  | .ready fc => withBlocked fc
  | .send fc _ _ => withBlocked fc
  | _ => rest

/-- `final_size` (send_stream.rs:872-880). -/
def Stream.finalSize (s : Stream) : Option Nat :=
  match s.state with
  | .dataSent tx _ _ _ => some tx.used
  | .resetSent _ final _ _ _ _ => some final
  | .resetReliable _ _ final _ _ _ => some final
  | _ => none

/-- `bytes_written` (send_stream.rs:893-915). -/
def Stream.bytesWritten (s : Stream) : Nat :=
  match s.state with
  | .send _ tx _ => tx.retired + tx.buf.length
  | .dataSent tx _ _ _ => tx.retired + tx.buf.length
  | .resetReliable tx _ _ _ _ _ => tx.retired + tx.buf.length
  | .dataRecvd r w => r + w
  | .resetSent _ _ _ _ r w => r + w
  | .resetRecvd r w => r + w
  | .ready _ => 0

/-- `bytes_acked` (send_stream.rs:918-929). -/
def Stream.bytesAcked (s : Stream) : Nat :=
  match s.state with
  | .send _ tx _ => tx.retired
  | .dataSent tx _ _ _ => tx.retired
  | .resetReliable tx _ _ _ _ _ => tx.retired
  | .dataRecvd r _ => r
  | .resetSent _ _ _ _ r _ => r
  | .resetRecvd r _ => r
  | .ready _ => 0

/-- `is_ended` (send_stream.rs:1435-1440). -/
def Stream.isEnded (s : Stream) : Bool :=
  match s.state with
  | .dataRecvd _ _ | .resetRecvd _ _ => true
  | _ => false

end Neqo.Send
