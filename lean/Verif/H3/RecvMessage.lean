import Verif.H3.Frames
import Verif.H3.ReaderSpec

/-!
# Receiving a request or response: `neqo-http3/src/recv_message.rs`

`RecvMessage` reads the frames of one request stream, passes the header sections
and promises up, and lets the application read the body.  The stream itself is a
`Src` (what has arrived and was not read).  The QPACK decoder, which is shared with
the other streams, is described by what its answers to this stream depend on: the
fields in a block (`dec`), whether a block refers to the dynamic table
(`refers`), and whether the insertions received so far (`n`) are enough for it
(`ready`).
-/
namespace Neqo.H3
open Neqo.Codec (Bytes)

/-- What a valid header section starts: an interim response (1xx), the final
message, or a session (an extended CONNECT request). -/
inductive HKind where
  | interim | final | connect
  deriving Repr, DecidableEq

/-- What a message is read with.  `D` are decoded fields, `H` those passed up.
`check` stands for `is_interim`, `headers_valid`, the fields taken out of a response,
and the test for extended CONNECT (recv_message.rs:169-187; headers_checks.rs).
`handler` says whether the stream may carry promises (`push_handler`). -/
structure Ctx (D H : Type) where
  prio : Bytes → Except Err Priority
  dec : Bytes → Except Err D
  refers : Bytes → Except Err Bool
  ready : Nat → Bytes → Bool
  check : D → Except Err (HKind × H)
  handler : Bool

/-- `enum RecvMessageState` (recv_message.rs:57-67). -/
inductive RmState where
  | waitHeaders (r : Reader)
  | decoding (block : Bytes) (fin : Bool)
  | waitData (r : Reader)
  | reading (left : Nat)
  | waitFin (r : Reader)
  | closePending
  | closed
  | connect
  deriving Repr, DecidableEq

/-- What is passed up: to the application through events and reads, and to the
push controller (`promise`). -/
inductive Up (D H : Type) where
  | headers (h : H) (interim fin : Bool)
  | connect (h : H)
  | readable
  | data (bs : Bytes) (fin : Bool)
  | promise (id : Nat) (d : D)
  | closed
  deriving Repr, DecidableEq

/-- Errors.  `other` are those that do not follow from this stream alone: the push
controller refuses a promise, the block of a promise cannot be decoded, or too many
streams are blocked. -/
inductive RErr where
  | main (e : Err)
  | other (e : Err)
  | panic
  deriving Repr, DecidableEq

/-- An error in the block of a promise. -/
def RErr.ofPromise : RErr → RErr
  | .main e => .other e
  | e => e

/-- `struct RecvMessage` (recv_message.rs:75-86), with what it reads from and what it
has passed up.  `waiting` is the block for which the QPACK decoder has the stream in
`blocked_streams` (decoder.rs:34), `n` the number of insertions the decoder has. -/
structure Rm (D H : Type) where
  st : RmState
  blocked : List (Nat × Bytes)
  waiting : Option Bytes
  n : Nat
  src : Src
  out : List (Up D H)
  deriving Repr, DecidableEq

variable {D H : Type}

/-- What else a call depends on: whether the decoder has room for another blocked
stream, and what the push controller says to a promise. -/
structure Env (D : Type) where
  room : Bool
  accept : Nat → D → Except Err Unit

/-- `RecvMessage::new` (recv_message.rs:96-121). -/
def Rm.init (firstFrameType : Option Nat) (n : Nat) : Rm D H :=
  { st := .waitHeaders (match firstFrameType with | none => Reader.new | some t => Reader.newWithType t)
    blocked := [], waiting := none, n := n, src := ⟨[], false⟩, out := [] }

def Rm.emit (m : Rm D H) (u : Up D H) : Rm D H := { m with out := m.out ++ [u] }

/-- `Decoder::decode_header_block` (decoder.rs:206-241) for this stream. -/
def Rm.decode (C : Ctx D H) (E : Env D) (m : Rm D H) (b : Bytes) : Rm D H × Except RErr (Option D) :=
  if C.ready m.n b then
    match C.dec b with
    | .ok d => (m, .ok (some d))
    | .error e => (m, .error (.main e))
  else if m.waiting.isSome then (m, .ok none)
  else if E.room then ({ m with waiting := some b }, .ok none)
  else (m, .error (.other .httpGeneralProtocolStream))

/-- `RecvMessage::set_closed` (recv_message.rs:367-376). -/
def Rm.setClosed (m : Rm D H) : Rm D H :=
  { m with st := .closed, waiting := if m.blocked = [] then m.waiting else none }.emit .closed

/-- `RecvMessage::set_state_to_close_pending` (recv_message.rs:215-240). -/
def Rm.setClosePending (m : Rm D H) (post : Bool) : Rm D H × Option RErr :=
  match m.st with
  | .waitHeaders _ => (m, some (.main .httpGeneralProtocolStream))
  | .reading _ => ({ m with st := .closePending }, none)
  | .waitData _ | .waitFin _ =>
    ({ (if post then m.emit .readable else m) with st := .closePending }, none)
  | _ => (m, some .panic)

/-- `RecvMessage::handle_headers_frame` (recv_message.rs:123-145). -/
def Rm.handleHeaders (m : Rm D H) (block : Bytes) (fin : Bool) : Rm D H × Option RErr :=
  match m.st with
  | .waitHeaders _ =>
    if block = [] then (m, some (.main .httpGeneralProtocolStream))
    else ({ m with st := .decoding block fin }, none)
  | .waitData _ => ({ m with st := .waitFin Reader.new }, none)
  | .waitFin _ => (m, some (.main .httpFrameUnexpected))
  | _ => (m, some .panic)

/-- `RecvMessage::handle_data_frame` (recv_message.rs:147-168). -/
def Rm.handleData (m : Rm D H) (len : Nat) (fin : Bool) : Rm D H × Option RErr :=
  match m.st with
  | .waitHeaders _ | .waitFin _ => (m, some (.main .httpFrameUnexpected))
  | .waitData _ =>
    if len > 0 then
      if fin then (m, some (.main .httpFrame)) else ({ m with st := .reading len }, none)
    else (m, none)
  | _ => (m, some .panic)

/-- `RecvMessage::handle_push_promise` (recv_message.rs:242-269). -/
def Rm.handlePromise (C : Ctx D H) (E : Env D) (m : Rm D H) (id : Nat) (block : Bytes) :
    Rm D H × Option RErr :=
  if !C.handler then (m, some (.main .httpFrameUnexpected))
  else if m.blocked ≠ [] then ({ m with blocked := m.blocked ++ [(id, block)] }, none)
  else
    match m.decode C E block with
    | (m1, .error e) => (m1, some e.ofPromise)
    | (m1, .ok (some d)) =>
      match E.accept id d with
      | .error e => (m1, some (.other e))
      | .ok () => (m1.emit (.promise id d), none)
    | (m1, .ok none) => ({ m1 with blocked := [(id, block)] }, none)

/-- The frames of `RecvMessage::receive_internal` (recv_message.rs:299-310). -/
def Rm.handleFrame (C : Ctx D H) (E : Env D) (m : Rm D H) (f : HFrame) (fin : Bool) :
    Rm D H × Option RErr :=
  match f with
  | .headers block => m.handleHeaders block fin
  | .data len => m.handleData len fin
  | .pushPromise id block => m.handlePromise C E id block
  | _ => (m, some (.main .httpFrameUnexpected))

/-- `RecvMessage::add_headers` (recv_message.rs:170-213). -/
def Rm.addHeaders (C : Ctx D H) (m : Rm D H) (d : D) (fin : Bool) : Rm D H × Option RErr :=
  match C.check d with
  | .error e => (m, some (.main e))
  | .ok (k, h) =>
    if fin && k = .interim then (m, some (.main .httpGeneralProtocolStream))
    else
      let m1 := if k = .connect then m.emit (.connect h) else m.emit (.headers h (k = .interim) fin)
      if fin then (m1.setClosed, none)
      else ({ m1 with st := match k with
        | .connect => .connect
        | .interim => .waitHeaders Reader.new
        | .final => .waitData Reader.new }, none)

/-- The reader of the states that read frames. -/
def RmState.reader : RmState → Option Reader
  | .waitHeaders r | .waitData r | .waitFin r => some r
  | _ => none

def RmState.withReader (r : Reader) : RmState → RmState
  | .waitHeaders _ => .waitHeaders r
  | .waitData _ => .waitData r
  | .waitFin _ => .waitFin r
  | s => s

/-- Whether a header section is being decoded. -/
def RmState.isDecoding : RmState → Bool
  | .decoding _ _ => true
  | _ => false

/-- The decoding of a header section in `RecvMessage::receive_internal`
(recv_message.rs:322-349).  The Boolean says whether the loop goes on. -/
def Rm.decodeHeaders (C : Ctx D H) (E : Env D) (m : Rm D H) (block : Bytes) (fin : Bool) :
    Rm D H × Option RErr × Bool :=
  match C.refers block with
  | .error e => (m, some (.main e), false)
  | .ok ref =>
    if ref && m.blocked ≠ [] then (m, none, false)
    else
      match m.decode C E block with
      | (m1, .error e) => (m1, some e, false)
      | (m1, .ok none) => (m1, none, false)
      | (m1, .ok (some d)) =>
        match m1.addHeaders C d fin with
        | (m2, some e) => (m2, some e, false)
        | (m2, none) => (m2, none, !(m2.st = .closed || m2.st = .connect))

/-- `RecvMessage::receive_internal` (recv_message.rs:271-365).  `fuel` bounds the
passes through the loop. -/
def Rm.loop (C : Ctx D H) (E : Env D) (post : Bool) : Nat → Rm D H → Rm D H × Option RErr
  | 0, m => (m, some .panic)
  | fuel + 1, m =>
    match m.st.reader with
    | some r =>
      match r.receive (hDecoder C.prio) m.src with
      | .error e => (m, some (.main e))
      | .ok (r', s', none, fin) =>
        let m1 := { m with st := m.st.withReader r', src := s' }
        if fin then m1.setClosePending post else (m1, none)
      | .ok (r', s', some f, fin) =>
        let m1 := { m with st := m.st.withReader r', src := s' }
        match m1.handleFrame C E f fin with
        | (m2, some e) => (m2, some e)
        | (m2, none) =>
          if m2.st = .closed then (m2, none)
          else if fin && !m2.st.isDecoding then m2.setClosePending post
          else m2.loop C E post fuel
    | none =>
      match m.st with
      | .decoding block fin =>
        match m.decodeHeaders C E block fin with
        | (m1, some e, _) => (m1, some e)
        | (m1, none, true) => m1.loop C E post fuel
        | (m1, none, false) => (m1, none)
      | .reading _ => (if post then m.emit .readable else m, none)
      | .connect => (m, none)
      | _ => (m, some .panic)

/-- Enough passes for what has arrived: every frame read takes a byte, and is
followed by at most one pass that decodes. -/
def Rm.fuel (m : Rm D H) : Nat := 2 * m.src.avail.length + 3

/-- `RecvMessage::receive` (recv_message.rs:393-399). -/
def Rm.receive (C : Ctx D H) (E : Env D) (m : Rm D H) : Rm D H × Option RErr :=
  m.loop C E true m.fuel

/-- `RecvMessage::read_data` (recv_message.rs:412-455) into a buffer with `room`
bytes left, after `got`. -/
def Rm.readLoop (C : Ctx D H) (E : Env D) : Nat → Nat → Bytes → Rm D H → Rm D H × Option RErr
  | 0, _, _, m => (m, some .panic)
  | fuel + 1, room, got, m =>
    match m.st with
    | .reading left =>
      let toRead := min left room
      let (input, fin, s') := m.src.read toRead
      let left' := left - input.length
      let m1 := { m with st := .reading left', src := s' }
      if fin then
        if left' > 0 then (m1, some (.main .httpFrame))
        else (m1.setClosed.emit (.data (got ++ input) true), none)
      else if left' = 0 then
        match ({ m1 with st := .waitData Reader.new }).loop C E false m1.fuel with
        | (m2, some e) => (m2, some e)
        | (m2, none) => m2.readLoop C E fuel (room - input.length) (got ++ input)
      else (m1.emit (.data (got ++ input) false), none)
    | .closePending => (m.setClosed.emit (.data got true), none)
    | _ => (m.emit (.data got false), none)

/-- The promises in `RecvMessage::header_unblocked` (recv_message.rs:463-486).  The
Boolean says whether all of them were decoded. -/
def Rm.unblock (C : Ctx D H) (E : Env D) : Nat → Rm D H → Rm D H × Option RErr × Bool
  | 0, m => (m, some .panic, false)
  | fuel + 1, m =>
    match m.blocked with
    | [] => (m, none, true)
    | (id, b) :: rest =>
      match m.decode C E b with
      | (m1, .error e) => (m1, some e.ofPromise, false)
      | (m1, .ok none) => (m1, none, false)
      | (m1, .ok (some d)) =>
        match E.accept id d with
        | .error e => (m1, some (.other e), false)
        | .ok () => ({ m1 with blocked := rest }.emit (.promise id d)).unblock C E fuel

/-- `RecvMessage::header_unblocked` (recv_message.rs:463-486). -/
def Rm.headerUnblocked (C : Ctx D H) (E : Env D) (m : Rm D H) : Rm D H × Option RErr :=
  match m.unblock C E (m.blocked.length + 1) with
  | (m1, some e, _) => (m1, some e)
  | (m1, none, false) => (m1, none)
  | (m1, none, true) => m1.receive C E

/-- What happens to the stream.
* `arrive`: bytes, and perhaps the end, come in order, and the stream is reported
  readable (connection.rs:484-500).  The transport reports a stream only until its end
  has been read (recv_stream.rs:769, events.rs:172-175).
* `insert`: the QPACK decoder has received `n` insertions; it takes the streams
  that these are enough for out of its list (decoder.rs:75-95), and
  `handle_unblocked_streams` (connection.rs:502-520) resumes them.
* `read`: the application reads into a buffer of some size. -/
inductive RmOp (D : Type) where
  | arrive (bs : Bytes) (fin : Bool) (e : Env D)
  | insert (n : Nat) (e : Env D)
  | read (room : Nat) (e : Env D)

/-- Whether the end of the stream has been read from the transport. -/
def Rm.ended (m : Rm D H) : Bool :=
  match m.st with
  | .decoding _ fin => fin
  | .closePending | .closed => true
  | _ => false

/-- Bytes, and perhaps the end, arrive; nothing comes after the end. -/
def Src.add (s : Src) (bs : Bytes) (fin : Bool) : Src :=
  if s.fin then s else ⟨s.avail ++ bs, fin⟩

/-- One operation.  A stream that is closed has been removed from the list of
receive streams, and nothing happens to it any more. -/
def Rm.step (C : Ctx D H) (m : Rm D H) : RmOp D → Rm D H × Option RErr
  | .arrive bs fin E =>
    let m1 := { m with src := m.src.add bs fin }
    if m.ended then (m1, none) else m1.receive C E
  | .insert n E =>
    let m1 := { m with n := n }
    match m.waiting with
    | none => (m1, none)
    | some b =>
      if C.ready n b then
        let m2 := { m1 with waiting := none }
        if m.st = .closed then (m2, none) else m2.headerUnblocked C E
      else (m1, none)
  | .read room E =>
    if m.st = .closed then (m, none)
    else m.readLoop C E (m.src.avail.length + 2) room [] 

/-- A history: it stops at an error, because then the stream is reset or the
connection is closed. -/
def Rm.run (C : Ctx D H) : Rm D H → List (RmOp D) → Rm D H × Option RErr
  | m, [] => (m, none)
  | m, op :: ops =>
    match m.step C op with
    | (m1, some e) => (m1, some e)
    | (m1, none) => m1.run C ops

end Neqo.H3

namespace Neqo.H3.Spec
open Neqo.Codec (Bytes)
open Neqo.H3

/-- What is in a message: header sections, bytes of the body, promises, and the
end. -/
inductive Ev (D H : Type) where
  | headers (h : H)
  | connect (h : H)
  | byte (b : UInt8)
  | promise (id : Nat) (block : Bytes)
  | fin
  deriving Repr, DecidableEq

/-- How it ends: more is to come, the message is complete, the stream was handed
over to a session, or an error. -/
inductive MEnd where
  | more | done | handed
  | failed (e : Err)
  deriving Repr, DecidableEq

inductive Phase where
  | head | body | tail
  deriving Repr, DecidableEq

variable {D H : Type}

def put (x : Ev D H) (r : List (Ev D H) × MEnd) : List (Ev D H) × MEnd := (x :: r.1, r.2)

/-- The fields of a section, and what it starts. -/
def fields (C : Ctx D H) (block : Bytes) : Except Err (HKind × H) :=
  match C.dec block with
  | .error e => .error e
  | .ok d => C.check d

/-- The message in a sequence of frames and payload bytes (RFC 9114 §4.1): header
sections of interim responses, one of the final message, `DATA` frames, at most one
trailer section (which is dropped).  Promises may come anywhere. -/
def message (C : Ctx D H) : Phase → List (Item HFrame) → End → List (Ev D H) × MEnd
  | .head, [], .finished => ([], .failed .httpGeneralProtocolStream)
  | _, [], .finished => ([.fin], .done)
  | _, [], .more => ([], .more)
  | _, [], .failed e => ([], .failed e)
  | p, .frame (.pushPromise id b) :: is, e =>
    if C.handler then put (.promise id b) (message C p is e) else ([], .failed .httpFrameUnexpected)
  | .head, .frame (.headers b) :: is, e =>
    if b = [] then ([], .failed .httpGeneralProtocolStream)
    else match fields C b with
      | .error e => ([], .failed e)
      | .ok (.interim, h) => put (.headers h) (message C .head is e)
      | .ok (.final, h) => put (.headers h) (message C .body is e)
      | .ok (.connect, h) => ([.connect h], .handed)
  | .body, .frame (.headers _) :: is, e => message C .tail is e
  | .body, .frame (.data _) :: is, e => message C .body is e
  | .body, .byte b :: is, e => put (.byte b) (message C .body is e)
  | _, .frame _ :: _, _ => ([], .failed .httpFrameUnexpected)
  | _, .byte _ :: _, _ => ([], .failed .panic)

/-- The message in a whole stream. -/
def wholeMessage (C : Ctx D H) (bs : Bytes) (fin : Bool) : List (Ev D H) × MEnd :=
  let x := read (http3 C.prio) bs fin
  message C .head x.1 x.2

end Neqo.H3.Spec
