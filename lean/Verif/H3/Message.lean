import Verif.H3.Send

/-!
# Sending a message: `neqo-http3/src/send_message.rs` and `buffered_send_stream.rs`
-/
namespace Neqo.H3
open Neqo.Codec

/-- `enum MessageState` (send_message.rs:54-59). -/
inductive MsgState where
  | waitingForHeaders | waitingForData | trailersSet | done
  deriving Repr, DecidableEq

/-- `struct SendMessage` (send_message.rs:109-117) with its `BufferedStream`
(buffered_send_stream.rs:15-22) and the stream of the transport: what has been
handed to it, and whether it has been closed.  The stream is taken to exist. -/
structure SendMsg where
  response : Bool
  state : MsgState := .waitingForHeaders
  buf : Bytes := []
  out : Bytes := []
  closed : Bool := false
  deriving Repr, DecidableEq

/-- Errors of the calls; `panic` is a failed `debug_assert`, which without
assertions loses data. -/
inductive SendErr where
  | invalidInput
  | panic
  deriving Repr, DecidableEq

/-- `MessageState::new_headers` (send_message.rs:61-86).  `interim` is
`is_interim(headers)`, `trailersOk` is `trailers_valid(headers)`. -/
def MsgState.newHeaders (s : MsgState) (response interim trailersOk : Bool) :
    Except SendErr MsgState :=
  match s with
  | .waitingForHeaders =>
    if response then (if interim then .ok .waitingForHeaders else .ok .waitingForData)
    else .ok .waitingForData
  | .waitingForData => if trailersOk then .ok .trailersSet else .error .invalidInput
  | .trailersSet | .done => .error .invalidInput

/-- `MessageState::fin` (send_message.rs:96-104). -/
def MsgState.fin (s : MsgState) : Except SendErr MsgState :=
  match s with
  | .waitingForHeaders | .done => .error .invalidInput
  | .waitingForData | .trailersSet => .ok .done

/-- `BufferedStream::send_buffer` (buffered_send_stream.rs:66-84): as much as the
stream takes.  `avail` is what `stream_avail_send_space` would report. -/
def SendMsg.flush (m : SendMsg) (avail : Nat) : SendMsg :=
  { m with out := m.out ++ m.buf.take avail, buf := m.buf.drop avail }

/-- How much of the body goes into the next DATA frame (send_message.rs:193-206). -/
def dataLen (len available : Nat) : Nat :=
  if available ≤ 66 then min (min len (available - 2)) 63
  else if available ≤ 16388 then min (min len (available - 3)) 16383
  else if available ≤ 2 ^ 30 - 1 then min (min len (available - 5)) (2 ^ 30 - 1 + 9)
  else min len (available - 9)

/-- `SendMessage::send_data` (send_message.rs:172-224). -/
def SendMsg.sendData (m : SendMsg) (body : Bytes) (avail : Nat) :
    Except SendErr Nat × SendMsg :=
  if m.state ≠ .waitingForData then (.error .invalidInput, m)
  else
    let m1 := m.flush avail
    let available := avail - min m.buf.length avail
    if m1.buf ≠ [] then (.ok 0, m1)
    else if available < 3 then (.ok 0, m1)
    else
      let toSend := dataLen body.length available
      match (do pure ((← encodeVarint 0) ++ (← encodeVarint toSend)) : Option Bytes) with
      | none => (.error .panic, m1)
      | some header =>
        if available < header.length then (.error .panic, m1)
        else
          let m2 := { m1 with out := m1.out ++ header }
          let payload := body.take toSend
          if payload = [] then (.error .invalidInput, m2)
          else if available - header.length < payload.length then (.error .panic, m2)
          else (.ok toSend, { m2 with out := m2.out ++ payload })

/-- `SendMessage::send` (send_message.rs:247-266). -/
def SendMsg.send (m : SendMsg) (avail : Nat) : SendMsg :=
  let m1 := m.flush avail
  if m1.buf = [] ∧ m1.state = .done then { m1 with closed := true } else m1

/-- `SendMessage::close` (send_message.rs:287-296). -/
def SendMsg.close (m : SendMsg) : Except SendErr Unit × SendMsg :=
  match m.state.fin with
  | .error e => (.error e, m)
  | .ok s =>
    let m1 := { m with state := s }
    (.ok (), if m1.buf = [] then { m1 with closed := true } else m1)

/-- `SendMessage::send_headers` (send_message.rs:320-327).  `block` is the encoded
field section. -/
def SendMsg.sendHeaders (m : SendMsg) (block : Bytes) (interim trailersOk : Bool) :
    Except SendErr Unit × SendMsg :=
  match m.state.newHeaders m.response interim trailersOk with
  | .error e => (.error e, m)
  | .ok s =>
    match Sent.encode (fun _ => []) (.frame (.headers block)) with
    | none => (.error .panic, m)
    | some e => (.ok (), { m with state := s, buf := m.buf ++ e })

/-- What the owner of the message does. -/
inductive MsgOp where
  | headers (block : Bytes) (interim trailersOk : Bool)
  | data (body : Bytes) (avail : Nat)
  | send (avail : Nat)
  | close
  deriving Repr, DecidableEq

/-- What was accepted. -/
inductive Accepted where
  | headers (block : Bytes)
  | body (bytes : Bytes)
  | fin
  deriving Repr, DecidableEq

/-- One call: what was accepted, and whether it panicked. -/
def SendMsg.step (m : SendMsg) : MsgOp → List Accepted × Option SendErr × SendMsg
  | .headers block interim ok =>
    match m.sendHeaders block interim ok with
    | (.ok _, m') => ([.headers block], none, m')
    | (.error e, m') => ([], some e, m')
  | .data body avail =>
    match m.sendData body avail with
    | (.ok n, m') => ([.body (body.take n)], none, m')
    | (.error e, m') => ([], some e, m')
  | .send avail => ([], none, m.send avail)
  | .close =>
    match m.close with
    | (.ok _, m') => ([.fin], none, m')
    | (.error e, m') => ([], some e, m')

/-- Calls, one after another. -/
def SendMsg.run (m : SendMsg) : List MsgOp → List Accepted × List SendErr × SendMsg
  | [] => ([], [], m)
  | op :: ops =>
    let x := m.step op
    let y := x.2.2.run ops
    (x.1 ++ y.1, x.2.1.toList ++ y.2.1, y.2.2)

end Neqo.H3

namespace Neqo.H3.Spec
open Neqo.Codec (Bytes)
open Neqo.H3

/-- A message, as its sender or its receiver sees it: field sections and bytes. -/
inductive Part where
  | fields (block : Bytes)
  | byte (b : UInt8)
  deriving Repr, DecidableEq

/-- The parts that a sender had accepted. -/
def accepted : List Accepted → List Part
  | [] => []
  | .headers block :: rest => .fields block :: accepted rest
  | .body bytes :: rest => bytes.map .byte ++ accepted rest
  | .fin :: rest => accepted rest

/-- The parts that a receiver reads. -/
def received : List (Item HFrame) → List Part
  | [] => []
  | .frame (.headers block) :: rest => .fields block :: received rest
  | .frame _ :: rest => received rest
  | .byte b :: rest => .byte b :: received rest

end Neqo.H3.Spec
