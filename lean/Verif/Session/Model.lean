import Verif.H3.Send
import Verif.H3.Reader

/-!
# Extended CONNECT sessions: `neqo-http3/src/features/extended_connect`

A WebTransport or CONNECT-UDP session: its control stream, what the application
is told, and the HTTP datagrams of the session, which travel in QUIC datagrams or,
for CONNECT-UDP, in capsules on the control stream.

Left out: the streams inside a WebTransport session, send groups, statistics and
header fields other than the status.
-/
namespace Neqo.Sess
open Neqo.Codec Neqo.H3

/-- `enum ExtendedConnectType` (features/extended_connect/mod.rs:62-68). -/
inductive SKind where
  | webTransport
  | connectUdp
  deriving Repr, DecidableEq

/-- `enum State` (session.rs:66-72). -/
inductive St where
  | negotiating
  | active
  | finPending
  | done
  deriving Repr, DecidableEq

/-- `State::closing_state` (session.rs:75-77). -/
def St.closing : St → Bool
  | .finPending | .done => true
  | _ => false

/-- `enum CloseReason` (session.rs:32-37). -/
inductive Reason where
  | error (code : Nat)
  | status (code : Nat)
  | clean (error : Nat) (message : Bytes)
  deriving Repr, DecidableEq

/-- What the application is told (`trait ExtendedConnectEvents`,
features/extended_connect/mod.rs:33-60). -/
inductive Ev where
  | started (status : Nat)
  | ended (reason : Reason)
  | datagram (payload : Bytes)
  deriving Repr, DecidableEq

/-- `struct Session` (session.rs:52-64).  `src` stands for the control stream's
receiving side: the payload of its DATA frames that was received and not yet read,
and whether the end follows.  `gone`: no longer among the streams of the
connection. -/
structure Session where
  id : Nat
  kind : SKind
  st : St
  reader : Reader
  src : Src
  gone : Bool
  deriving Repr, DecidableEq

/-- `Session::new` (session.rs:88-125), the client's. -/
def Session.new (id : Nat) (kind : SKind) : Session :=
  ⟨id, kind, .negotiating, Reader.new, ⟨[], false⟩, false⟩

/-- `Session::new_with_http_streams` (session.rs:127-155), the server's. -/
def Session.accepted (id : Nat) (kind : SKind) : Session :=
  { Session.new id kind with st := .active }

/-! ## Datagrams -/

/-- `Protocol::write_datagram_prefix` (connect_udp_session.rs:100-102,
webtransport_session.rs:258-260). -/
def SKind.dgramPrefix : SKind → Option Bytes
  | .webTransport => some []
  | .connectUdp => encodeVarint 0

/-- `Protocol::dgram_context_id` (connect_udp_session.rs:104-119,
webtransport_session.rs:262-265). -/
def SKind.contextId (k : SKind) (d : Bytes) : Option Bytes :=
  match k with
  | .webTransport => some d
  | .connectUdp =>
    match decodeVarint d with
    | some (v, rest) => if v = 0 then some rest else none
    | none => none

/-- `Protocol::datagram_capsule_support` (connect_udp_session.rs:121-123,
webtransport_session.rs:267-278). -/
def SKind.capsules : SKind → Bool
  | .webTransport => false
  | .connectUdp => true

/-- What becomes of a datagram of the application. -/
inductive Sent where
  /-- In a QUIC datagram with this content. -/
  | quic (data : Bytes)
  /-- As these bytes in a DATA frame on the control stream. -/
  | capsule (data : Bytes)
  | dropped
  deriving Repr, DecidableEq

/-- Errors of sending. -/
inductive SErr where
  | invalidStreamId
  | unavailable
  | tooMuchData
  | panic
  deriving Repr, DecidableEq

/-- `Protocol::write_datagram_capsule` (connect_udp_session.rs:125-150); `space` is
`stream_avail_send_space`. -/
def capsuleDatagram (k : SKind) (space : Nat) (buf : Bytes) : Except SErr Sent :=
  match k.dgramPrefix with
  | none => .error .panic
  | some p =>
    if space < (p ++ buf).length then .ok .dropped
    else match capsuleEncode (p ++ buf) with
      | none => .error .panic
      | some e => .ok (.capsule e)

/-- The content of the QUIC datagram (session.rs:420-423). -/
def Session.quicDatagram (s : Session) (buf : Bytes) : Option Bytes := do
  let i ← encodeVarint (s.id / 4)
  let p ← s.kind.dgramPrefix
  pure (i ++ p ++ buf)

/-- `Session::send_datagram` (session.rs:399-431), with
`QuicDatagrams::add_datagram`'s check of the size (quic_datagrams.rs:163-170).
`remote` is `remote_datagram_size`. -/
def Session.sendDatagram (s : Session) (remote space : Nat) (buf : Bytes) : Except SErr Sent :=
  if s.st ≠ .active then .error .unavailable
  else if remote = 0 ∧ s.kind.capsules = true then capsuleDatagram s.kind space buf
  else match s.quicDatagram buf with
    | none => .error .panic
    | some d => if d.length > remote then .error .tooMuchData else .ok (.quic d)

/-- `Http3Connection::extended_connect_send_datagram`
(connection.rs:1654-1665) with `validate_extended_connect_session`
(connection.rs:1500-1509). -/
def sendDatagram (ss : List Session) (id remote space : Nat) (buf : Bytes) : Except SErr Sent :=
  match ss.find? (fun s => !s.gone && s.id = id) with
  | none => .error .invalidStreamId
  | some s => if s.st ≠ .active then .error .invalidStreamId else s.sendDatagram remote space buf

/-- `Session::datagram` (session.rs:433-449). -/
def Session.datagram (s : Session) (d : Bytes) : List Ev :=
  if s.st ≠ .active then []
  else match s.kind.contextId d with
    | some p => [.datagram p]
    | none => []

/-- `Http3Connection::handle_datagram` (connection.rs:672-690): which session gets
what. -/
def handleDatagram (ss : List Session) (d : Bytes) : List (Nat × Ev) :=
  match decodeVarint d with
  | none => []
  | some (v, rest) =>
    match ss.find? (fun s => !s.gone && s.id = v * 4) with
    | none => []
    | some s => (s.datagram rest).map fun e => (s.id, e)

/-- `WebTransportSession::max_datagram_size` (webtransport.rs:751-759) and the
client's (webtransport.rs:210-216): what the transport reports, less the
session's number. -/
def wtMaxDatagram (id transportMax : Nat) : Option Nat :=
  (varintLen (id >>> 2)).map (transportMax - ·)

/-! ## The control stream -/

/-- How reading the control stream ended. -/
inductive Read where
  /-- Nothing changes. -/
  | none
  | state (st : St)
  | failed
  deriving Repr, DecidableEq

/-- A datagram capsule (connect_udp_session.rs:70-78): its payload is passed on
without the context, whatever state the session is in. -/
def capsuleEvents (payload : Bytes) : List Ev :=
  match SKind.connectUdp.contextId payload with
  | some p => [.datagram p]
  | Option.none => []

/-- `read_control_stream` of CONNECT-UDP (connect_udp_session.rs:51-98).  `fuel`
bounds the number of capsules. -/
def readUdp : Nat → Reader → Src → List Ev × Read × Reader × Src
  | 0, r, s => ([], .failed, r, s)
  | fuel + 1, r, s =>
    match r.receive capsuleDecoder s with
    | .error _ => ([], .failed, r, s)
    | .ok (r', s', Option.none, fin) =>
      if fin then ([.ended (.clean 0 [])], .state .done, r', s') else ([], .none, r', s')
    | .ok (r', s', some payload, fin) =>
      if fin then (capsuleEvents payload ++ [.ended (.clean 0 [])], .state .done, r', s')
      else
        let x := readUdp fuel r' s'
        (capsuleEvents payload ++ x.1, x.2)

/-- `read_control_stream` of WebTransport (webtransport_session.rs:118-159).
`utf8` is `String::from_utf8(..).is_ok()`. -/
def readWt (utf8 : Bytes → Bool) (r : Reader) (s : Src) : List Ev × Read × Reader × Src :=
  match r.receive (wtDecoder utf8) s with
  | .error _ => ([], .failed, r, s)
  | .ok (r', s', some f, fin) =>
    ([.ended (.clean f.error f.message)], .state (if fin then .done else .finPending), r', s')
  | .ok (r', s', Option.none, fin) =>
    if fin then ([.ended (.clean 0 [])], .state .done, r', s') else ([], .none, r', s')

/-- `Session::read_control_stream` (session.rs:349-360). -/
def Session.readControl (utf8 : Bytes → Bool) (s : Session) : List Ev × Session × Bool :=
  let x := match s.kind with
    | .connectUdp => readUdp (s.src.avail.length + 1) s.reader s.src
    | .webTransport => readWt utf8 s.reader s.src
  let s' := { s with reader := x.2.2.1, src := x.2.2.2 }
  match x.2.1 with
  | .none => (x.1, s', false)
  | .state st => (x.1, { s' with st := st }, false)
  | .failed => (x.1, s', true)

/-- `Session::close` (session.rs:232-246). `none` is `CloseType::ResetApp`, the
application's own doing. -/
def Session.close (s : Session) (why : Option Reason) : List Ev × Session :=
  if s.st.closing then ([], s)
  else ((match why with | some r => [.ended r] | Option.none => []), { s with st := .done })

/-- What the control stream's `RecvMessage` passes on in one activation. -/
inductive Arrival where
  /-- The final response headers; `fin` when the stream ended with them, else the
  content received and whether the stream ended after it. -/
  | headers (status : Nat) (fin : Bool) (data : Bytes) (dataFin : Bool)
  /-- More content. -/
  | content (data : Bytes) (fin : Bool)
  deriving Repr, DecidableEq

/-- `Session::maybe_check_headers` (session.rs:248-322).  Informational responses
change nothing (one that ends the stream is refused before, recv_message.rs:181)
and are left out. -/
def Session.checkHeaders (s : Session) (status : Nat) (fin : Bool) : List Ev × Session :=
  if s.st ≠ .negotiating then ([], s)
  else if 200 ≤ status ∧ status < 300 then
    if fin then ([.ended (.clean 0 [])], { s with st := .done })
    else ([.started status], { s with st := .active })
  else ([.ended (.status status)], { s with st := .done })

/-- `HttpGeneralProtocolStream` on the wire (lib.rs:288-316). -/
def generalProtocol : Nat := 0x101

/-- What the receiving side of the control stream holds after an arrival. -/
def Session.accept (s : Session) : Arrival → Session
  | .headers _ fin d dfin => if fin then s else { s with src := ⟨s.src.avail ++ d, dfin⟩ }
  | .content d fin => { s with src := ⟨s.src.avail ++ d, fin⟩ }

/-- The headers of an arrival, if any. -/
def Session.arrived (s : Session) : Arrival → List Ev × Session
  | .headers status fin _ _ => s.checkHeaders status fin
  | .content _ _ => ([], s)

/-- `Session::receive` (session.rs:179-186), `Session::header_unblocked`
(session.rs:188-202), and what the connection does with the outcome
(`handle_stream_manipulation_output`, connection.rs:811-834): remove the session
when it is done, close it with the error when the control stream is malformed. -/
def Session.receive (utf8 : Bytes → Bool) (s : Session) (a : Arrival) : List Ev × Session :=
  let x := (s.accept a).arrived a
  let y := x.2.readControl utf8
  if y.2.2 then
    let z := y.2.1.close (some (.error generalProtocol))
    (x.1 ++ y.1 ++ z.1, { z.2 with gone := true })
  else (x.1 ++ y.1, { y.2.1 with gone := decide (y.2.1.st = .done) })

/-- What happens to a session. -/
inductive Op where
  /-- The control stream is readable. -/
  | arrive (a : Arrival)
  /-- RESET_STREAM or STOP_SENDING for the control stream
  (connection.rs:569-594, 1835-1851). -/
  | peerReset (code : Nat)
  /-- The application resets or stops the control stream
  (connection.rs:1028-1043, 1067-1083). -/
  | appReset
  /-- `close_session` (session.rs:366-388) by the application; `sent` is whether
  everything including the end was handed to the transport. -/
  | appClose (sent : Bool)
  /-- `Session::send` (session.rs:224-230); `sent` as above. -/
  | flush (sent : Bool)
  /-- A QUIC datagram for this session, without the session's number. -/
  | datagram (d : Bytes)
  deriving Repr, DecidableEq

/-- One step.  A session that is gone is not reached any more
(connection.rs:1843-1851, 1886-1919). -/
def Session.step (utf8 : Bytes → Bool) (s : Session) (op : Op) : List Ev × Session :=
  if s.gone then ([], s)
  else match op with
  | .arrive a => s.receive utf8 a
  | .peerReset code =>
    let x := s.close (some (.error code))
    (x.1, { x.2 with gone := true })
  | .appReset =>
    let x := s.close Option.none
    (x.1, { x.2 with gone := true })
  | .appClose sent => ([], { s with st := if sent then .done else .finPending, gone := sent })
  | .flush sent => ([], if sent then { s with st := .done, gone := true } else s)
  | .datagram d => (s.datagram d, s)

/-- A history: what the application is told, and the session afterwards. -/
def Session.run (utf8 : Bytes → Bool) : Session → List Op → List Ev × Session
  | s, [] => ([], s)
  | s, op :: ops =>
    let x := s.step utf8 op
    let y := Session.run utf8 x.2 ops
    (x.1 ++ y.1, y.2)

end Neqo.Sess
