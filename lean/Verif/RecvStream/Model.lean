import Verif.RecvStream.RxModel
import Verif.Flow.Model

/-!
# Model of `RecvStream` (`neqo-transport/src/recv_stream.rs:567-1330`)

The session flow control shared by all streams (`Rc<RefCell<ReceiverFlowControl<()>>>`) is
threaded through every function as `ses`.  Events posted to `ConnectionEvents` are returned.
An error closes the connection in the callers, so the state left behind by a failing call is
not modelled.  The keep-alive marker and qlog/trace output are not modelled.
-/
namespace Neqo.RecvS
open Neqo.Codec (Bytes)
open Neqo.Flow (RFc)
open Neqo.Recv (Rx)

/-- `RecvStreamState` (recv_stream.rs:567-618). -/
inductive State where
  | recv (fc : RFc) (buf : Rx)
  | sizeKnown (fc : RFc) (buf : Rx)
  | sizeKnownAt (fc : RFc) (buf : Rx) (err finalSize reliableSize : Nat)
  | dataRecvd (fc : RFc) (buf : Rx)
  | dataRead (finalReceived finalRead : Nat)
  | abortReading (fc : RFc) (finalSizeReached frameNeeded : Bool) (err finalReceived finalRead : Nat)
  | waitForReset (fc : RFc) (finalReceived finalRead : Nat)
  | resetRecvd (finalReceived finalRead : Nat)
  deriving Repr, DecidableEq

/-- Events posted by a receive stream. -/
inductive Ev where
  | readable
  | reset (err : Nat)
  | complete
  deriving Repr, DecidableEq

/-- `RecvStream::new` (recv_stream.rs:734-746, 621-631). -/
def State.new (maxStreamData : Nat) : State := .recv (RFc.new maxStreamData) {}

/-- `flow_control_retire_data` (recv_stream.rs:1066-1075). -/
def retireData (newRead : Nat) (fc ses : RFc) : Except Err (RFc × RFc) :=
  if newRead > 0 then do
    let fc' ← fc.addRetired newRead
    let ses' ← ses.addRetired newRead
    pure (fc', ses')
  else pure (fc, ses)

/-- The final-size check (recv_stream.rs:669-674). -/
def finalSizeOk (fin known : Bool) (consumed fcConsumed : Nat) : Bool :=
  match fin, known with
  | true, true => consumed == fcConsumed
  | false, true => decide (consumed ≤ fcConsumed)
  | true, false => decide (consumed ≥ fcConsumed)
  | false, false => true

/-- The common part of `flow_control_consume_data` (recv_stream.rs:668-687).  The subtraction
`fc.consumed() - fc.retired()` does not underflow: see `StrOk`. -/
def consumeCore (fc ses : RFc) (known retire : Bool) (consumed : Nat) (fin : Bool) :
    Except Err (RFc × RFc) :=
  if finalSizeOk fin known consumed fc.consumed then do
    let (fc1, new) ← fc.setConsumed consumed
    let ses1 ← ses.consume new
    if retire then retireData (fc1.consumed - fc1.retired) fc1 ses1 else pure (fc1, ses1)
  else .error .finalSize

/-- `flow_control_consume_data` (recv_stream.rs:646-687). -/
def State.consumeData (st : State) (ses : RFc) (consumed : Nat) (fin : Bool) :
    Except Err (State × RFc) :=
  match st with
  | .recv fc buf => do
    let (fc', ses') ← consumeCore fc ses false false consumed fin
    pure (.recv fc' buf, ses')
  | .waitForReset fc a b => do
    let (fc', ses') ← consumeCore fc ses false true consumed fin
    pure (.waitForReset fc' a b, ses')
  | .sizeKnown fc buf => do
    let (fc', ses') ← consumeCore fc ses true false consumed fin
    pure (.sizeKnown fc' buf, ses')
  | .sizeKnownAt fc buf e fs rel => do
    let (fc', ses') ← consumeCore fc ses true false consumed fin
    pure (.sizeKnownAt fc' buf e fs rel, ses')
  | .dataRecvd fc buf => do
    let (fc', ses') ← consumeCore fc ses true false consumed fin
    pure (.dataRecvd fc' buf, ses')
  | .abortReading fc fsr fn e a b => do
    let (fc', ses') ← consumeCore fc ses fsr true consumed fin
    pure (.abortReading fc' (fsr || fin) fn e a b, ses')
  | .dataRead .. | .resetRecvd .. => pure (st, ses)

/-- `data_ready` (recv_stream.rs:1123-1127). -/
def State.dataReady : State → Bool
  | .recv _ buf | .sizeKnown _ buf | .sizeKnownAt _ buf _ _ _ | .dataRecvd _ buf => buf.dataReady
  | _ => false

/-- `needs_to_inform_app_about_fin` (recv_stream.rs:1119-1121). -/
def State.isDataRecvd : State → Bool
  | .dataRecvd .. => true
  | _ => false

/-- `is_ended` (recv_stream.rs:1111-1116). -/
def State.isEnded : State → Bool
  | .resetRecvd .. | .dataRead .. => true
  | _ => false

/-- The `match` of `inbound_stream_frame` (recv_stream.rs:819-899). -/
def State.deliver (st : State) (fin : Bool) (offset : Nat) (data : Bytes) : Except Err State :=
  match st with
  | .recv fc buf => do
    let buf' ← buf.inboundFrame offset data
    if fin then
      if fc.consumed = buf'.retired + buf'.bytesReady then pure (.dataRecvd fc buf')
      else pure (.sizeKnown fc buf')
    else pure (.recv fc buf')
  | .sizeKnown fc buf => do
    let buf' ← buf.inboundFrame offset data
    if fc.consumed = buf'.retired + buf'.bytesReady then pure (.dataRecvd fc buf')
    else pure (.sizeKnown fc buf')
  | .sizeKnownAt fc buf e fs rel =>
    let keep := rel - offset
    if keep > 0 then do
      let buf' ← buf.inboundFrame offset (data.take keep)
      pure (.sizeKnownAt fc buf' e fs rel)
    else pure st
  | _ => pure st

/-- `inbound_stream_frame` (recv_stream.rs:819-899). -/
def State.inboundFrame (st : State) (ses : RFc) (fin : Bool) (offset : Nat) (data : Bytes) :
    Except Err (State × RFc × List Ev) := do
  let already := st.dataReady
  let (st1, ses1) ← st.consumeData ses (offset + data.length) fin
  let st2 ← st1.deliver fin offset data
  let evs := if !already && (st2.dataReady || st2.isDataRecvd) then [Ev.readable] else []
  pure (st2, ses1, evs)

/-- `finish_reset` (recv_stream.rs:1021-1040). -/
def State.finishReset (st : State) (ses : RFc) (finalSize err finalReceived finalRead : Nat) :
    Except Err (State × RFc × Bool × List Ev) :=
  match st with
  | .sizeKnownAt fc _ _ _ _ | .abortReading fc _ _ _ _ _ | .waitForReset fc _ _ =>
    if finalSize < fc.retired then .error .panic
    else do
      let (_, ses') ← retireData (finalSize - fc.retired) fc ses
      pure (.resetRecvd finalReceived finalRead, ses', true, [.reset err])
  | _ => pure (.resetRecvd finalReceived finalRead, ses, true, [.reset err])

/-- `complete_reliable_reset_if_drained` (recv_stream.rs:1045-1064). -/
def State.completeIfDrained (st : State) (ses : RFc) : Except Err (State × RFc × Bool × List Ev) :=
  match st with
  | .sizeKnownAt _ buf err fs rel =>
    if buf.retired < rel then pure (st, ses, false, [])
    else st.finishReset ses fs err buf.received buf.retired
  | _ => pure (st, ses, false, [])

/-- `retire_undeliverable` (recv_stream.rs:1083-1093).  `still_needed ≤ reliable_size ≤ final_size`. -/
def retireUndeliverable (finalSize reliableSize read : Nat) (fc ses : RFc) :
    Except Err (RFc × RFc) :=
  let stillNeeded := reliableSize - read
  let target := finalSize - stillNeeded
  retireData (target - fc.retired) fc ses

/-- The `match` of `reset` (recv_stream.rs:925-1013). -/
def State.resetMatch (st : State) (ses : RFc) (err finalSize reliableSize : Nat) :
    Except Err (State × RFc × Bool × List Ev) :=
  match st with
  | .recv fc buf | .sizeKnown fc buf =>
    let buf' := buf.discardAfter reliableSize
    do
      let (fc', ses') ← retireUndeliverable finalSize reliableSize buf'.retired fc ses
      (State.sizeKnownAt fc' buf' err finalSize reliableSize).completeIfDrained ses'
  | .sizeKnownAt fc buf e fs stored =>
    if err ≠ e then .error .streamState
    else if reliableSize < stored then
      let buf' := buf.discardAfter reliableSize
      do
        let (fc', ses') ← retireUndeliverable fs reliableSize buf'.retired fc ses
        (State.sizeKnownAt fc' buf' e fs reliableSize).completeIfDrained ses'
    else pure (st, ses, false, [])
  | .abortReading _ _ _ _ fr frd | .waitForReset _ fr frd => st.finishReset ses finalSize err fr frd
  | _ => pure (st, ses, false, [])

/-- `reset` (recv_stream.rs:913-1016). -/
def State.reset (st : State) (ses : RFc) (err finalSize reliableSize : Nat) :
    Except Err (State × RFc × Bool × List Ev) :=
  if reliableSize > finalSize then .error .frameEncoding
  else do
    let (st1, ses1) ← st.consumeData ses finalSize true
    st1.resetMatch ses1 err finalSize reliableSize

/-- `RxStreamOrderer::buffered` (recv_stream.rs:506-511). -/
def bufferedGo (retired : Nat) : List (Nat × Bytes) → Except Err Nat
  | [] => .ok 0
  | (start, d) :: rest =>
    if d.length < retired - start then .error .panic
    else do
      let n ← bufferedGo retired rest
      pure (d.length - (retired - start) + n)

def buffered (b : Rx) : Except Err Nat := bufferedGo b.retired b.ranges

/-- `read` (recv_stream.rs:1131-1187) with a buffer of `n` bytes: bytes copied and the fin flag. -/
def State.read (st : State) (ses : RFc) (n : Nat) :
    Except Err (State × RFc × Bytes × Bool × List Ev) :=
  match st with
  | .recv fc buf => do
    let (buf', out) ← buf.read n
    let (fc', ses') ← retireData out.length fc ses
    pure (.recv fc' buf', ses', out, false, [])
  | .sizeKnown fc buf => do
    let (buf', out) ← buf.read n
    let (fc', ses') ← retireData out.length fc ses
    pure (.sizeKnown fc' buf', ses', out, false, [])
  | .dataRecvd fc buf => do
    let (buf', out) ← buf.read n
    let (fc', ses') ← retireData out.length fc ses
    let left ← buffered buf'
    if left = 0 then
      pure (.dataRead buf'.received buf'.retired, ses', out, true, [.complete])
    else pure (.dataRecvd fc' buf', ses', out, false, [])
  | .sizeKnownAt fc buf e fs rel => do
    let (buf', out) ← buf.read n
    let (fc', ses') ← retireData out.length fc ses
    let (st', ses'', _, evs) ← (State.sizeKnownAt fc' buf' e fs rel).completeIfDrained ses'
    pure (st', ses'', out, false, evs)
  | _ => .error .noMoreData

/-- `stop_sending` (recv_stream.rs:1194-1257). -/
def State.stopSending (st : State) (ses : RFc) (err : Nat) :
    Except Err (State × RFc × Bool × List Ev) :=
  match st with
  | .recv fc buf => do
    let (fc', ses') ← retireData (fc.consumed - fc.retired) fc ses
    pure (.abortReading fc' false true err buf.received buf.retired, ses', false, [])
  | .sizeKnown fc buf => do
    let (fc', ses') ← retireData (fc.consumed - fc.retired) fc ses
    pure (.abortReading fc' true true err buf.received buf.retired, ses', false, [])
  | .dataRecvd fc buf => do
    let (_, ses') ← retireData (fc.consumed - fc.retired) fc ses
    pure (.dataRead buf.received buf.retired, ses', true, [.complete])
  | .sizeKnownAt _ buf e fs _ => st.finishReset ses fs e buf.received buf.retired
  | _ => pure (st, ses, false, [])

/-- Frames written by a receive stream. -/
inductive Frame where
  | maxStreamData (limit : Nat)
  | stopSending (err : Nat)
  deriving Repr, DecidableEq

/-- `write_frame` (recv_stream.rs:1260-1289). -/
def State.writeFrame (st : State) (fits : Bool) (now rtt : Nat) :
    Except Err (State × Option Frame) :=
  match st with
  | .recv fc buf => do
    let (fc', o) ← fc.write fits now rtt Flow.maxLocalMaxStreamData
    pure (.recv fc' buf, o.map .maxStreamData)
  | .abortReading fc fsr fn err a b =>
    if fn && fits then pure (.abortReading fc fsr false err a b, some (.stopSending err))
    else pure (st, none)
  | _ => pure (st, none)

/-- `max_stream_data_lost` (recv_stream.rs:1291-1295). -/
def State.maxStreamDataLost (st : State) (l : Nat) : State :=
  match st with
  | .recv fc buf => .recv (fc.frameLost l) buf
  | _ => st

/-- `stop_sending_lost` (recv_stream.rs:1297-1301). -/
def State.stopSendingLost (st : State) : State :=
  match st with
  | .abortReading fc fsr _ err a b => .abortReading fc fsr true err a b
  | _ => st

/-- `stop_sending_acked` (recv_stream.rs:1307-1338). -/
def State.stopSendingAcked (st : State) : State × Bool :=
  match st with
  | .abortReading fc fsr _ _ a b =>
    if fsr then (.resetRecvd a b, true) else (.waitForReset fc a b, false)
  | _ => (st, false)

/-- `send_flowc_update` (recv_stream.rs:1098-1102). -/
def State.sendFlowcUpdate (st : State) : State :=
  match st with
  | .recv fc buf => .recv fc.sendFlowcUpdate buf
  | _ => st

/-- `set_stream_max_data` (recv_stream.rs:1104-1108). -/
def State.setStreamMaxData (st : State) (m : Nat) : State :=
  match st with
  | .recv fc buf => .recv (fc.setMaxActive m) buf
  | _ => st

end Neqo.RecvS
