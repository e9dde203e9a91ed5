import Verif.Lib.Basic

/-!
# The HTTP/3 connection

The part of HTTP/3 above the single streams: which handler each stream has, the control frames,
the SETTINGS of the peer, GOAWAY, requests, the WebTransport and CONNECT-UDP sessions and the
streams that belong to them, for clients and servers.

What a single stream handler makes of the bytes it is given is an input here (`Read`); it is
modelled in `Verif.H3.Head`, `Verif.H3.Reader`, `Verif.H3.RecvMessage` and `Verif.H3.Send`.
Everything that is told to the application or asked of the transport is appended to `log`.
The filtering of events that are still in the queue is left out, as are priorities and the
statistics.
-/

namespace Neqo.H3c

/-- neqo-common/src/lib.rs `Role`. -/
inductive Role | client | server
  deriving DecidableEq, Repr

/-- neqo-transport/src/stream_id.rs:20-90 `StreamId::is_uni`: the second lowest bit. -/
def isUni (i : Nat) : Bool := i / 2 % 2 == 1

/-- neqo-transport/src/stream_id.rs:20-90 `StreamId::is_server_initiated`: the lowest bit. -/
def isServerInit (i : Nat) : Bool := i % 2 == 1

/-- neqo-transport/src/stream_id.rs:20-90 `StreamId::is_self_initiated`. -/
def isOwn (r : Role) (i : Nat) : Bool :=
  match r with
  | .client => !isServerInit i
  | .server => isServerInit i

/-- neqo-http3/src/lib.rs:197-288 `Error`, as far as this layer tells errors apart. `other` stands
for the remaining errors a handler or the transport can give, with the code they are sent with.
`panic` is not an error of the code: it marks a place where the program stops. -/
inductive Err
  | general | protocolStream | internal (n : Nat) | streamCreation | closedCritical
  | frameUnexpected | frame | id | settings | missingSettings | invalidHeader
  | qpackDecoder | qpackEncoder
  | alreadyClosed | goaway | internalErr | invalidStreamId | invalidState | streamLimit
  | unavailable
  | other (code : Nat)
  | panic
  deriving DecidableEq, Repr

/-- neqo-http3/src/lib.rs:286-311 `Error::code` (QPACK: neqo-qpack/src/lib.rs `Error::code`). -/
def Err.code : Err → Nat
  | .general | .protocolStream | .invalidHeader => 0x101
  | .internal _ => 0x102
  | .streamCreation => 0x103
  | .closedCritical => 0x104
  | .frameUnexpected => 0x105
  | .frame => 0x106
  | .id => 0x108
  | .settings => 0x109
  | .missingSettings => 0x10a
  | .qpackEncoder => 0x201
  | .qpackDecoder => 0x202
  | .other c => c
  | _ => 3

/-- neqo-http3/src/lib.rs:314-329 `Error::connection_error`. -/
def Err.isConnection : Err → Bool
  | .general | .internal _ | .streamCreation | .closedCritical | .frameUnexpected | .frame | .id
  | .settings | .missingSettings | .qpackEncoder | .qpackDecoder => true
  | _ => false

/-- neqo-http3/src/lib.rs:332-334 `Error::stream_reset_error`. -/
def Err.streamOnly : Err → Bool
  | .protocolStream | .invalidHeader => true
  | _ => false

/-- Why a connection ended: neqo-transport/src/lib.rs `CloseReason`. -/
inductive Reason | transport (e : Nat) | app (code : Nat)
  deriving DecidableEq, Repr

/-- neqo-http3/src/connection.rs:91-98 `Http3State`. -/
inductive St
  | initializing | zeroRtt | connected | goingAway (id : Nat) | closing (r : Reason)
  | closed (r : Reason)
  deriving DecidableEq, Repr

/-- neqo-http3/src/connection.rs:102-104 `Http3State::active`. -/
def St.active : St → Bool
  | .connected | .goingAway _ | .zeroRtt => true
  | _ => false

/-- `Closing(_) | Closed(_)` as matched in neqo-http3/src/connection_client.rs:488-491. -/
def St.over : St → Bool
  | .closing _ | .closed _ => true
  | _ => false

/-- Whether the connection is closed (neqo-http3/src/connection_client.rs:804). -/
def St.closedNow : St → Bool
  | .closed _ => true
  | _ => false

/-- The values of the settings the peer sent, defaults filled in (neqo-http3/src/settings.rs
`HSettings::get`). -/
structure Sets where
  maxHeader : Nat
  table : Nat
  blocked : Nat
  wt : Nat
  dgram : Nat
  connect : Nat
  deriving DecidableEq, Repr

/-- neqo-http3/src/connection.rs:71-75 `Http3RemoteSettingsState`. -/
inductive Remote | notYet | received (s : Sets) | zeroRtt (s : Sets)
  deriving DecidableEq, Repr

/-- neqo-http3/src/features/mod.rs:26-34 `NegotiationState`. -/
inductive Nego | disabled | negotiating | negotiated | failed
  deriving DecidableEq, Repr

/-- The receiving handlers; neqo-http3/src/lib.rs:394-404 `Http3StreamType`, with the two kinds of
handler that have type `ExtendedConnect` kept apart: `connect` is a plain message (a classic
CONNECT, or a request a server has yet to answer), `session` a session. -/
inductive RK | head | control | encoder | decoder | http | push (p : Nat) | connect | session
  | wt (s : Nat)
  deriving DecidableEq, Repr

/-- The sending handlers. `fin` says that the application has ended the message
(neqo-http3/src/send_message.rs `MessageState::Done`). -/
inductive SK | http (fin : Bool) | connect (fin : Bool) | session (fin : Bool) | wt (s : Nat)
  deriving DecidableEq, Repr

/-- `stream_type() == ExtendedConnect` of a receiving handler. -/
def RK.ext : RK → Bool
  | .connect | .session => true
  | _ => false

/-- `stream_type() == ExtendedConnect` of a sending handler. -/
def SK.ext : SK → Bool
  | .connect _ | .session _ => true
  | _ => false

/-- neqo-http3/src/connection.rs:1816-1823 `recv_stream_is_critical`, for a handler. -/
def RK.critical : RK → Bool
  | .control | .encoder | .decoder => true
  | _ => false

/-- neqo-http3/src/features/extended_connect/session.rs:67-72 `State`. -/
inductive SSt | negotiating | active | finPending | done
  deriving DecidableEq, Repr

/-- neqo-http3/src/features/extended_connect/session.rs:75-77 `closing_state`. -/
def SSt.over : SSt → Bool
  | .finPending | .done => true
  | _ => false

/-- neqo-http3/src/features/extended_connect/session.rs:53-64 `Session`, together with
neqo-http3/src/features/extended_connect/webtransport_session.rs:29-44 `Session`. `udp`: a
CONNECT-UDP session, which has no streams of its own. -/
structure Sess where
  udp : Bool
  st : SSt
  draining : Bool
  recv : List Nat
  send : List Nat
  pending : List Nat
  deriving DecidableEq, Repr

/-- neqo-http3/src/lib.rs:667-672 `CloseType`. -/
inductive CT | app (e : Nat) | remote (e : Nat) | fault (e : Nat) | done
  deriving DecidableEq, Repr

/-- neqo-http3/src/features/extended_connect/session.rs:32-36 `CloseReason`. -/
inductive EndReason | error (e : Nat) | status (s : Nat) | clean (e : Nat)
  deriving DecidableEq, Repr

/-- neqo-http3/src/features/extended_connect/session.rs:39-50 `From<CloseType>`. -/
def CT.reason : CT → EndReason
  | .app e | .remote e | .fault e => .error e
  | .done => .clean 0

/-- What is told to the application (neqo-http3/src/client_events.rs, server_connection_events.rs)
and what is asked of the transport. -/
inductive Eff
  | state (s : St)
  | goaway
  | reset (id code : Nat)
  | stopped (id code : Nat)
  | readable (id : Nat)
  | sessionStart (id : Nat)
  | sessionEnd (id : Nat) (r : EndReason)
  | sessionStream (sess id : Nat)
  | draining (id : Nat)
  | prio (id : Nat)
  | zeroRttRejected
  | negotiated (udp ok : Bool)
  | stopSending (id code : Nat)
  | resetSend (id code : Nat)
  | opened (id : Nat)
  | closeConn (code : Nat)
  | sendGoaway (id : Nat)
  deriving DecidableEq, Repr

/-- neqo-http3/src/connection.rs:291-305 `Http3Connection`. `ctl`, `enc`, `dec`: the streams this
end opened for control and QPACK. `sess` holds every session object there has been (handlers share
them); they go when all handlers are dropped. `dead`: the program has stopped at a panic. -/
structure C where
  role : Role
  st : St
  remote : Remote
  ctl : Option Nat
  enc : Option Nat
  dec : Option Nat
  recv : List (Nat × RK)
  send : List (Nat × SK)
  sess : List (Nat × Sess)
  wtF : Nego
  udpF : Nego
  dead : Bool
  log : List Eff
  deriving Repr

/-- neqo-http3/src/connection.rs:315-344 `new`. -/
def init (r : Role) (wt udp : Bool) : C where
  role := r
  st := .initializing
  remote := .notYet
  ctl := none
  enc := none
  dec := none
  recv := []
  send := []
  sess := []
  wtF := if wt then .negotiating else .disabled
  udpF := if udp then .negotiating else .disabled
  dead := false
  log := []

/-! ### Tables -/

/-- `HashMap::get`. -/
def get {α : Type} : List (Nat × α) → Nat → Option α
  | [], _ => none
  | (a, v) :: t, k => if a = k then some v else get t k

/-- `HashMap::remove`. -/
def del {α : Type} (l : List (Nat × α)) (k : Nat) : List (Nat × α) :=
  l.filter (fun p => p.1 != k)

/-- `HashMap::insert`. -/
def put {α : Type} (l : List (Nat × α)) (k : Nat) (v : α) : List (Nat × α) := (k, v) :: del l k

/-- Add to the log. -/
def C.emit (c : C) (e : Eff) : C := { c with log := c.log ++ [e] }

/-- Change a session object. -/
def C.setSess (c : C) (id : Nat) (s : Sess) : C := { c with sess := put c.sess id s }

/-! ### Telling the application that half a stream is over -/

/-- neqo-http3/src/client_events.rs:152-176 and
neqo-http3/src/server_connection_events.rs:120-130 `recv_closed`. -/
def recvClosed (c : C) (id : Nat) (ct : CT) : C :=
  match c.role, ct with
  | _, .done => c
  | .client, .app _ => c
  | .server, .app e => c.emit (.reset id e)
  | _, .remote e => c.emit (.reset id e)
  | _, .fault e => c.emit (.reset id e)

/-- neqo-http3/src/client_events.rs:205-211 and
neqo-http3/src/server_connection_events.rs:94-103 `send_closed`. -/
def sendClosed (c : C) (id : Nat) (ct : CT) : C :=
  match c.role, ct with
  | _, .done => c
  | _, .remote e => c.emit (.stopped id e)
  | .server, .app e => c.emit (.stopped id e)
  | .server, .fault e => c.emit (.stopped id e)
  | .client, _ => c

/-- neqo-http3/src/features/extended_connect/session.rs:232-246 `close`. -/
def closeSession (c : C) (id : Nat) (ct : CT) : C :=
  match get c.sess id with
  | none => c
  | some s =>
    if s.st.over then c
    else
      let c := c.setSess id { s with st := .done }
      match ct with
      | .app _ => c
      | _ => c.emit (.sessionEnd id ct.reason)

/-- neqo-http3/src/features/extended_connect/webtransport_session.rs:213-215
`remove_recv_stream`. -/
def dropSubRecv (c : C) (s id : Nat) : C :=
  match get c.sess s with
  | none => c
  | some x => c.setSess s { x with recv := x.recv.filter (· != id) }

/-- neqo-http3/src/features/extended_connect/webtransport_session.rs:217-219
`remove_send_stream`. -/
def dropSubSend (c : C) (s id : Nat) : C :=
  match get c.sess s with
  | none => c
  | some x => c.setSess s { x with send := x.send.filter (· != id) }

/-- `RecvStream::reset` of the handlers: neqo-http3/src/control_stream_remote.rs:64-66,
qpack_decoder_receiver.rs:33-35, qpack_encoder_receiver.rs:33-35, stream_type_reader.rs:230-233,
recv_message.rs:381-390, features/extended_connect/session.rs:462-465,
features/extended_connect/webtransport_streams.rs:65-71. -/
def resetRecv (c : C) (id : Nat) (k : RK) (ct : CT) : C × Option Err :=
  match k with
  | .head => (c, none)
  | .control | .encoder | .decoder => (c, some .closedCritical)
  | .http | .push _ | .connect => (recvClosed c id ct, none)
  | .session => (closeSession c id ct, none)
  | .wt s =>
    let c := match ct with
      | .app _ => c
      | _ => recvClosed c id ct
    (dropSubRecv c s id, none)

/-- `SendStream::handle_stop_sending` of the handlers: neqo-http3/src/send_message.rs:298-302,
features/extended_connect/session.rs:537-539,
features/extended_connect/webtransport_streams.rs:262-264. -/
def stopSend (c : C) (id : Nat) (k : SK) (ct : CT) : C :=
  match k with
  | .http fin | .connect fin => if fin then c else sendClosed c id ct
  | .session _ => closeSession c id ct
  | .wt s => dropSubSend (sendClosed c id ct) s id

/-! ### Removing streams -/

/-- HTTP code `H3_REQUEST_CANCELLED`. -/
def cancelled : Nat := 0x10c

/-- HTTP code `H3_REQUEST_REJECTED`. -/
def rejected : Nat := 0x10b

/-- neqo-http3/src/connection.rs:1860-1871, the loop over the receiving streams of a session. -/
def cutRecv (c : C) (id : Nat) : C :=
  let c := match get c.recv id with
    | none => c
    | some k => (resetRecv { c with recv := del c.recv id } id k (.remote cancelled)).1
  c.emit (.stopSending id cancelled)

/-- neqo-http3/src/connection.rs:1872-1883, the loop over the sending streams of a session. -/
def cutSend (c : C) (id : Nat) : C :=
  let c := match get c.send id with
    | none => c
    | some k => stopSend { c with send := del c.send id } id k (.remote cancelled)
  c.emit (.resetSend id cancelled)

/-- neqo-http3/src/connection.rs:1853-1884 `remove_extended_connect`, and
neqo-http3/src/features/extended_connect/webtransport_session.rs:221-226 `take_sub_streams`. -/
def removeExt (c : C) (id : Nat) : C :=
  match get c.sess id with
  | none => c
  | some s => s.send.foldl cutSend (s.recv.foldl cutRecv (c.setSess id { s with recv := [], send := [] }))

/-- neqo-http3/src/connection.rs:1886-1901 `remove_recv_stream`. Gives the handler that was
removed; the `?` makes it none if the sending half of an extended CONNECT is missing. -/
def removeRecv (c : C) (id : Nat) : C × Option RK :=
  match get c.recv id with
  | none => (c, none)
  | some k =>
    let c := { c with recv := del c.recv id }
    if k.ext then
      match get c.send id with
      | none => (c, none)
      | some _ =>
        let c := { c with send := del c.send id }
        (if k = .session then removeExt c id else c, some k)
    else (c, some k)

/-- neqo-http3/src/connection.rs:1903-1919 `remove_send_stream`. -/
def removeSend (c : C) (id : Nat) : C × Option SK :=
  match get c.send id with
  | none => (c, none)
  | some k =>
    let c := { c with send := del c.send id }
    if k.ext then
      match get c.recv id with
      | none => (c, none)
      | some r =>
        let c := { c with recv := del c.recv id }
        (if r = .session then removeExt c id else c, some k)
    else (c, some k)

/-- neqo-http3/src/connection.rs:1841-1851 `close_recv`. -/
def closeRecv (c : C) (id : Nat) (ct : CT) : C × Option Err :=
  match removeRecv c id with
  | (c, none) => (c, none)
  | (c, some k) => resetRecv c id k ct

/-- neqo-http3/src/connection.rs:1835-1839 `close_send`. -/
def closeSend (c : C) (id : Nat) (ct : CT) : C :=
  match removeSend c id with
  | (c, none) => c
  | (c, some k) => stopSend c id k ct

/-- neqo-http3/src/connection.rs:1816-1823 `recv_stream_is_critical`. -/
def recvCritical (c : C) (id : Nat) : Bool :=
  match get c.recv id with
  | some k => k.critical
  | none => false

/-- neqo-http3/src/connection.rs:1825-1833 `send_stream_is_critical`. -/
def sendCritical (c : C) (id : Nat) : Bool :=
  c.enc == some id || c.dec == some id || c.ctl == some id

/-! ### Reading -/

/-- neqo-http3/src/stream_type_reader.rs:24-32 `NewStreamType`. -/
inductive NewType | control | push (p : Nat) | decoder | encoder | http | wt (s : Nat) | unknown
  deriving DecidableEq, Repr

/-- The frames a control stream can carry (neqo-http3/src/frames/hframe.rs `HFrame`). `other` are
the known frames that have no place there; frames of unknown type are skipped by the reader. -/
inductive Fr
  | settings (s : Sets) | goaway (id : Nat) | maxPush | cancelPush (bad : Option Err)
  | prioRequest (id : Nat) (allowed : Bool) | prioPush (id : Nat) | other
  deriving DecidableEq, Repr

/-- Response headers that reached a session: neqo-http3/src/features/extended_connect/mod.rs:162-166
`Headers`. `status` is none if there is no readable `:status`. -/
structure Hdr where
  interim : Bool
  fin : Bool
  status : Option Nat
  deriving DecidableEq, Repr

/-- What reading the stream of a session came to: an error of the message handler, headers, and
what the frame reader of the session made of the body: a close frame, the end of the stream, or
something that cannot be read. -/
structure SIn where
  bad : Option Err
  hdr : Option Hdr
  broken : Bool
  close : Option Nat
  fin : Bool
  deriving DecidableEq, Repr

/-- What reading a stream came to, for the handler that reads it. A result that does not fit the
handler counts as `pending`. `waiting` is a request with an extended CONNECT on a server; `known`
says that its protocol is one of the two that are implemented. -/
inductive Read
  | pending | newStream (t : NewType) | frames (fs : List Fr) | unblocked (ids : List Nat)
  | ended | waiting (known : Bool) | sess (i : SIn) | fail (e : Err)
  deriving DecidableEq, Repr

/-- neqo-http3/src/lib.rs:408-414 `ReceiveOutput`. -/
inductive Output
  | none | frames (fs : List Fr) | unblocked (ids : List Nat) | newStream (t : NewType)
  deriving DecidableEq, Repr

/-- neqo-http3/src/features/extended_connect/webtransport_session.rs:88-106 `session_start`: the
streams that came early are announced. -/
def announce (c : C) (id : Nat) (s : Sess) : C :=
  s.pending.foldl (fun c i => (c.emit (.sessionStream id i)).emit (.readable i)) c

/-- neqo-http3/src/features/extended_connect/session.rs:245-316 `maybe_check_headers`. -/
def checkHeaders (c : C) (id : Nat) (s : Sess) (h : Option Hdr) : C × Option Err :=
  if s.st = .negotiating then
    match h with
    | none => (c, none)
    | some h =>
      if h.interim then
        if h.fin then
          ((c.emit (.sessionEnd id (.clean 0))).setSess id { s with st := .done }, none)
        else (c, none)
      else
        match h.status with
        | none => (c, some .internalErr)
        | some n =>
          if 200 ≤ n ∧ n < 300 then
            if h.fin then
              ((c.emit (.sessionEnd id (.clean 0))).setSess id { s with st := .done }, none)
            else
              ((announce (c.emit (.sessionStart id)) id s).setSess id
                { s with st := .active, pending := [] }, none)
          else ((c.emit (.sessionEnd id (.status n))).setSess id { s with st := .done }, none)
  else (c, none)

/-- neqo-http3/src/features/extended_connect/webtransport_session.rs:118-159 and
connect_udp_session.rs:51-98 `read_control_stream`, and session.rs:343-353. Datagrams in capsules
are left out. -/
def readControl (c : C) (id : Nat) (i : SIn) : C × Option Err :=
  match get c.sess id with
  | none => (c, none)
  | some s =>
    if i.broken then (c, some .protocolStream)
    else
      match s.udp, i.close with
      | false, some e =>
        ((c.emit (.sessionEnd id (.clean e))).setSess id
          { s with st := if i.fin then .done else .finPending }, none)
      | _, _ =>
        if i.fin then
          ((c.emit (.sessionEnd id (.clean 0))).setSess id { s with st := .done }, none)
        else (c, none)

/-- `self.state == State::Done` of a session. -/
def sessDone (c : C) (id : Nat) : Bool :=
  match get c.sess id with
  | some s => s.st == .done
  | none => false

/-- neqo-http3/src/features/extended_connect/session.rs:179-186 `receive` and 188-202
`header_unblocked`. The flag says that the session is over. -/
def sessReceive (c : C) (id : Nat) (i : SIn) : C × Except Err Bool :=
  match get c.sess id with
  | none => (c, .ok false)
  | some s =>
    match i.bad with
    | some e => (c, .error e)
    | none =>
      match checkHeaders c id s i.hdr with
      | (c, some e) => (c, .error e)
      | (c, none) =>
        match readControl c id i with
        | (c, some e) => (c, .error e)
        | (c, none) => (c, .ok (sessDone c id))

/-- `Session::is_active`, neqo-http3/src/features/extended_connect/session.rs:331-334. -/
def sessActive (c : C) (s : Nat) : Bool :=
  match get c.sess s with
  | some x => x.st == .active
  | none => false

/-- A message handler: neqo-http3/src/recv_message.rs:393-399 `receive`. On a server an extended
CONNECT becomes a stream of that type and the application is told; for any other protocol than the
two known ones that is `unimplemented!()`
(neqo-http3/src/server_connection_events.rs:149-170). -/
def readMessage (c : C) (id : Nat) (r : Read) : C × Except Err (Output × Bool) :=
  match r with
  | .ended => (c, .ok (.none, true))
  | .fail e => (c, .error e)
  | .waiting known =>
    match c.role with
    | .client => (c, .ok (.none, false))
    | .server =>
      if known then ({ c with recv := put c.recv id .connect }, .ok (.none, false))
      else (c, .error .panic)
  | _ => (c, .ok (.none, false))

/-- `RecvStream::receive` (and `header_unblocked`) of the handlers. The flag: the handler is done
and can go. neqo-http3/src/stream_type_reader.rs:235-241, control_stream_remote.rs:69-79,
qpack_decoder_receiver.rs:37-44, qpack_encoder_receiver.rs:37-42,
features/extended_connect/webtransport_streams.rs:58-63. -/
def receive (c : C) (id : Nat) (k : RK) (r : Read) : C × Except Err (Output × Bool) :=
  match k with
  | .head =>
    match r with
    | .newStream t => (c, .ok (.newStream t, true))
    | .fail e => (c, .error e)
    | _ => (c, .ok (.none, false))
  | .control =>
    match r with
    | .frames fs => (c, .ok (.frames fs, false))
    | .fail e => (c, .error e)
    | _ => (c, .ok (.frames [], false))
  | .decoder =>
    match r with
    | .unblocked ids => (c, .ok (.unblocked ids, false))
    | .fail e => (c, .error e)
    | _ => (c, .ok (.unblocked [], false))
  | .encoder =>
    match r with
    | .fail e => (c, .error e)
    | _ => (c, .ok (.none, false))
  | .http | .push _ | .connect => readMessage c id r
  | .session =>
    match r with
    | .sess i =>
      match sessReceive c id i with
      | (c, .error e) => (c, .error e)
      | (c, .ok d) => (c, .ok (.none, d))
    | _ => (c, .ok (.none, false))
  | .wt s => (if sessActive c s then c.emit (.readable id) else c, .ok (.none, false))

/-- neqo-http3/src/connection.rs:811-834 `handle_stream_manipulation_output`. -/
def afterRead (c : C) (id : Nat) (o : Except Err (Output × Bool)) : C × Except Err Output :=
  match o with
  | .ok (o, true) => ((removeRecv c id).1, .ok o)
  | .ok (o, false) => (c, .ok o)
  | .error e =>
    if e.streamOnly && !recvCritical c id then
      match closeRecv (c.emit (.stopSending id e.code)) id (.fault e.code) with
      | (c, some e) => (c, .error e)
      | (c, none) => (c, .ok .none)
    else (c, .error e)

/-- neqo-http3/src/connection.rs:485-500 `stream_receive`. -/
def streamReceive (c : C) (id : Nat) (r : Read) : C × Except Err Output :=
  match get c.recv id with
  | none => (c, .ok .none)
  | some k =>
    let x := receive c id k r
    afterRead x.1 id x.2

/-- `http_stream().is_some()` of a receiving handler: messages and sessions. -/
def RK.isHttp : RK → Bool
  | .http | .push _ | .connect | .session => true
  | _ => false

/-- neqo-http3/src/connection.rs:502-520 `handle_unblocked_streams`. -/
def unblocked (c : C) (un : Nat → Read) : List Nat → C × Option Err
  | [] => (c, none)
  | id :: t =>
    match get c.recv id with
    | none => unblocked c un t
    | some k =>
      if k.isHttp then
        let x := receive c id k (un id)
        match afterRead x.1 id x.2 with
        | (c, .error e) => (c, some e)
        | (c, .ok _) => unblocked c un t
      else (c, some (.internal 10))

/-! ### SETTINGS -/

/-- neqo-http3/src/connection.rs:1694-1699 `set_qpack_settings`: the limits of
neqo-qpack/src/encoder.rs:95-125. -/
def qpackFits (s : Sets) : Bool := s.table ≤ 1073741823 && s.blocked ≤ 65535

/-- neqo-http3/src/features/mod.rs:57-77 `negotiate`. -/
def negotiate (f : Nego) (ok : Bool) : Nego :=
  match f with
  | .negotiating => if ok then .negotiated else .failed
  | f => f

/-- neqo-http3/src/features/extended_connect/mod.rs:122-147 `handle_settings`, for both features.
`tp` says that the peer's transport parameters allow datagrams and reliable resets. -/
def features (c : C) (s : Sets) (tp : Bool) : C :=
  let wt := tp && s.dgram == 1 && (c.role == .server || (s.connect == 1 && s.wt == 1))
  let udp := c.role == .server || s.connect == 1
  let c1 := if c.wtF = .negotiating ∧ c.role = .client then c.emit (.negotiated false wt) else c
  let c2 := if c.udpF = .negotiating ∧ c.role = .client then c1.emit (.negotiated true udp) else c1
  { c2 with wtF := negotiate c.wtF wt, udpF := negotiate c.udpF udp }

/-- neqo-http3/src/connection.rs:1719-1761: the comparison with the settings that 0-RTT was used
with, one setting after another. -/
def compare (old new : Sets) : Except Err Bool :=
  if old.maxHeader > new.maxHeader then .error .settings
  else if old.table > new.table then .error .settings
  else if old.table < new.table ∧ old.table ≠ 0 then .error .qpackDecoder
  else if old.blocked > new.blocked then .error .settings
  else if old.wt > new.wt then .error .settings
  else if old.dgram > new.dgram then .error .settings
  else .ok (old.table != new.table || old.blocked != new.blocked)

/-- neqo-http3/src/connection.rs:1701-1767 `handle_settings`. -/
def handleSettings (c : C) (s : Sets) (tp : Bool) : C × Option Err :=
  match c.remote with
  | .notYet =>
    if qpackFits s then ({ features c s tp with remote := .received s }, none)
    else (c, some .qpackEncoder)
  | .zeroRtt old =>
    let c := features c s tp
    match compare old s with
    | .error e => (c, some e)
    | .ok changed =>
      if changed && !qpackFits s then (c, some .qpackEncoder)
      else ({ c with remote := .received s }, none)
  | .received _ => (c, some .frameUnexpected)

/-- neqo-http3/src/connection.rs:1670-1692 `handle_control_frame`. Gives the frame back if the client
or server is to handle it. -/
def controlFrame (c : C) (tp : Bool) (f : Fr) : C × Except Err (Option Fr) :=
  match f, c.remote with
  | .settings s, _ =>
    match handleSettings c s tp with
    | (c, some e) => (c, .error e)
    | (c, none) => (c, .ok none)
  | f, .received _ =>
    match f with
    | .other => (c, .error .frameUnexpected)
    | f => (c, .ok (some f))
  | _, _ => (c, .error .missingSettings)

/-- neqo-http3/src/connection.rs:548-556: the loop over the control frames. -/
def controlFrames (c : C) (tp : Bool) : List Fr → C × Except Err (List Fr)
  | [] => (c, .ok [])
  | f :: t =>
    match controlFrame c tp f with
    | (c, .error e) => (c, .error e)
    | (c, .ok o) =>
      match controlFrames c tp t with
      | (c, .error e) => (c, .error e)
      | (c, .ok rest) => (c, .ok (o.toList ++ rest))

/-! ### New streams -/

/-- neqo-http3/src/connection.rs:692-702 `check_stream_exists`. -/
def hasKind (c : C) (k : RK) : Bool := c.recv.any (fun p => p.2 == k)

/-- neqo-http3/src/connection.rs:709-782 `handle_new_stream`. `r` is what reading the stream with its
new handler comes to. -/
def newStream (c : C) (t : NewType) (id : Nat) (r : Read) : C × Except Err Output :=
  match t with
  | .control =>
    if hasKind c .control then (c, .error .streamCreation)
    else streamReceive { c with recv := put c.recv id .control } id r
  | .decoder =>
    if hasKind c .decoder then (c, .error .streamCreation)
    else streamReceive { c with recv := put c.recv id .decoder } id r
  | .encoder =>
    if hasKind c .encoder then (c, .error .streamCreation)
    else streamReceive { c with recv := put c.recv id .encoder } id r
  | .push p => (c, .ok (.newStream (.push p)))
  | .http => (c, .ok (.newStream .http))
  | .wt s =>
    match get c.send s with
    | some k =>
      if k.ext then (c, .ok (.newStream (.wt s)))
      else (c.emit (.stopSending id 0x103), .ok .none)
    | none => (c.emit (.stopSending id 0x103), .ok .none)
  | .unknown => (c.emit (.stopSending id 0x103), .ok .none)

/-- What comes with a readable stream: what the reads come to (the first, the one after the stream
has got its handler, those of streams that are unblocked), what the transport parameters allow, and
what the push controller (`Verif.H3.Push`) says about a new push stream. -/
structure In where
  first : Read
  second : Read
  un : Nat → Read
  tp : Bool
  push : Except Err Bool

/-- neqo-http3/src/connection.rs:538-566: what is done with the output of a read. -/
def handleOutput (c : C) (i : In) (o : Output) : C × Except Err Output :=
  match o with
  | .unblocked ids =>
    match unblocked c i.un ids with
    | (c, some e) => (c, .error e)
    | (c, none) => (c, .ok .none)
  | .frames fs =>
    match controlFrames c i.tp fs with
    | (c, .error e) => (c, .error e)
    | (c, .ok rest) => (c, .ok (.frames rest))
  | o => (c, .ok o)

/-- neqo-http3/src/connection.rs:530-566 `handle_stream_readable`. -/
def readableBase (c : C) (id : Nat) (r r' : Read) (i : In) : C × Except Err Output :=
  match streamReceive c id r with
  | (c, .error e) => (c, .error e)
  | (c, .ok (.newStream t)) =>
    match newStream c t id r' with
    | (c, .error e) => (c, .error e)
    | (c, .ok o) => handleOutput c i o
  | (c, .ok o) => handleOutput c i o

/-- neqo-http3/src/features/extended_connect/webtransport_session.rs:161-211 `add_stream`. -/
def addStream (c : C) (sid : Nat) (s : Sess) (id : Nat) : C :=
  if s.st.over then c
  else
    let own := isOwn c.role id
    let s := if !isUni id || own then { s with send := id :: s.send.filter (· != id) } else s
    let s := if !isUni id || !own then { s with recv := id :: s.recv.filter (· != id) } else s
    if s.st = .negotiating then
      c.setSess sid { s with pending := id :: s.pending.filter (· != id) }
    else if own then c.setSess sid s
    else (c.emit (.sessionStream sid id)).setSess sid s

/-- neqo-http3/src/connection.rs:1587-1651 `webtransport_create_stream_internal`. -/
def createStream (c : C) (sid : Nat) (s : Sess) (id : Nat) (own : Bool) : C × Option Err :=
  if s.udp then (c, some .invalidStreamId)
  else
    let c := addStream c sid s id
    let c := if !isUni id || own then { c with send := put c.send id (.wt sid) } else c
    let c := if !isUni id || !own then { c with recv := put c.recv id (.wt sid) } else c
    (c, none)

/-- neqo-http3/src/connection.rs:1489-1498 `get_extended_connect_session`. -/
def getSession (c : C) (sid : Nat) : Option Sess :=
  match get c.recv sid with
  | some .session => get c.sess sid
  | _ => none

/-- neqo-http3/src/connection.rs:1565-1585 `webtransport_create_stream_remote`. -/
def createRemote (c : C) (sid id : Nat) : C × Option Err :=
  match getSession c sid with
  | none => (c, some .invalidStreamId)
  | some s => createStream c sid s id false

/-! ### GOAWAY -/

/-- neqo-http3/src/connection_client.rs:47-52 `id_gte`. -/
def idGte (base id : Nat) : Bool := base ≤ id && (isUni id == isUni base)

/-- neqo-http3/src/connection.rs:580-594 `handle_stream_stop_sending`. -/
def handleStop (c : C) (id code : Nat) : C × Option Err :=
  if sendCritical c id then (c, some .closedCritical)
  else (closeSend c id (.remote code), none)

/-- neqo-http3/src/connection.rs:1366-1373 `drain_webtransport_sessions`, and the events made from
it (neqo-http3/src/connection_client.rs:1131-1142). -/
def drain (c : C) : C :=
  c.recv.foldl (fun c p =>
    match p.2 with
    | .session =>
      match get c.sess p.1 with
      | some s =>
        if !s.udp && !s.draining then
          (c.setSess p.1 { s with draining := true }).emit (.draining p.1)
        else c
      | none => c
    | _ => c) c

/-- neqo-http3/src/connection_client.rs:1144-1176: streams at or above the limit are given up. -/
def cutAbove (c : C) (g : Nat) : C :=
  let c := ((c.send.map (·.1)).filter (idGte g)).foldl (fun c id => (handleStop c id rejected).1) c
  ((c.recv.map (·.1)).filter (idGte g)).foldl (fun c id => (closeRecv c id (.remote rejected)).1) c

/-- neqo-http3/src/connection_client.rs:1102-1178 `handle_goaway`. -/
def handleGoaway (c : C) (g : Nat) : C × Option Err :=
  if isUni g || isServerInit g then (c, some .id)
  else
    match c.st with
    | .connected =>
      ((cutAbove (drain { c with st := .goingAway g }) g).emit .goaway, none)
    | .goingAway old =>
      if old < g then (c, some .goaway)
      else ((cutAbove (drain { c with st := .goingAway g }) g).emit .goaway, none)
    | .closing _ | .closed _ => ((cutAbove c g).emit .goaway, none)
    | .initializing | .zeroRtt => (c, some .panic)

/-- neqo-http3/src/connection_client.rs:1024-1045: control frames on a client. What cancelling a push
does to the push is part of `Verif.H3.Push`. -/
def clientFrames (c : C) : List Fr → C × Option Err
  | [] => (c, none)
  | f :: t =>
    match f with
    | .cancelPush none => clientFrames c t
    | .cancelPush (some e) => (c, some e)
    | .goaway g =>
      match handleGoaway c g with
      | (c, some e) => (c, some e)
      | (c, none) => clientFrames c t
    | .maxPush | .prioRequest _ _ | .prioPush _ => (c, some .frameUnexpected)
    | .settings _ | .other => (c, some .panic)

/-- neqo-http3/src/connection_server.rs:379-420: control frames on a server. -/
def serverFrames (c : C) : List Fr → C × Option Err
  | [] => (c, none)
  | f :: t =>
    match f with
    | .maxPush => serverFrames c t
    | .goaway _ | .cancelPush _ => (c, some .frameUnexpected)
    | .prioPush id => serverFrames (c.emit (.prio id)) t
    | .prioRequest id allowed =>
      if isUni id || isServerInit id || !allowed then (c, some .id)
      else serverFrames (c.emit (.prio id)) t
    | .settings _ | .other => (c, some .panic)

/-! ### Events of the transport -/

/-- Forget the output of a second read. -/
def drop2 (x : C × Except Err Output) : C × Option Err :=
  match x with
  | (c, .error e) => (c, some e)
  | (c, .ok _) => (c, none)

/-- neqo-http3/src/connection_client.rs:1051-1100 `handle_new_push_stream`. -/
def newPush (c : C) (id p : Nat) (i : In) : C × Option Err :=
  match i.push with
  | .error e => (c, some e)
  | .ok false => (c.emit (.stopSending id cancelled), none)
  | .ok true => drop2 (readableBase { c with recv := put c.recv id (.push p) } id i.second .pending i)

/-- neqo-http3/src/connection_client.rs:1005-1049 and neqo-http3/src/connection_server.rs:326-425
`handle_stream_readable`. -/
def readable (c : C) (id : Nat) (i : In) : C × Option Err :=
  match readableBase c id i.first i.second i with
  | (c, .error e) => (c, some e)
  | (c, .ok (.newStream (.push p))) =>
    match c.role with
    | .client => newPush c id p i
    | .server => (c, some .streamCreation)
  | (c, .ok (.newStream .http)) =>
    match c.role with
    | .client => (c, some .streamCreation)
    | .server =>
      drop2 (readableBase { c with send := put c.send id (.http false), recv := put c.recv id .http }
        id i.second .pending i)
  | (c, .ok (.newStream (.wt s))) =>
    match createRemote c s id with
    | (c, some e) => (c, some e)
    | (c, none) => drop2 (readableBase c id i.second .pending i)
  | (c, .ok (.frames fs)) =>
    match c.role with
    | .client => clientFrames c fs
    | .server => serverFrames c fs
  | (c, .ok _) => (c, none)

/-- neqo-http3/src/connection.rs:348-386 `initialize_http3_connection` and
`create_qpack_streams`. `uni`: the first free unidirectional stream, if the peer allows three. -/
def openOwn (c : C) (uni : Option Nat) : C × Option Err :=
  match uni with
  | none => (c, some (.other 3))
  | some u => ({ c with ctl := some u, enc := some (u + 4), dec := some (u + 8) }, none)

/-- The states of the transport that matter here. `handshaking true`: a server that has accepted
0-RTT. -/
inductive TSt | handshaking (zrtt : Bool) | connected | closing (r : Reason) | closed (r : Reason) | other
  deriving DecidableEq, Repr

/-- neqo-http3/src/connection.rs:598-645 `handle_state_change`. The flag says whether the application
is told. -/
def stateChange (c : C) (t : TSt) (uni : Option Nat) : C × Except Err Bool :=
  match t with
  | .handshaking z =>
    if c.role = .server ∧ z = true then
      match openOwn { c with st := .zeroRtt } uni with
      | (c, some e) => (c, .error e)
      | (c, none) => (c, .ok true)
    else (c, .ok false)
  | .connected =>
    match c.st with
    | .initializing =>
      match openOwn c uni with
      | (c, some e) => (c, .error e)
      | (c, none) => ({ c with st := .connected }, .ok true)
    | .zeroRtt => ({ c with st := .connected }, .ok true)
    | _ => (c, .error .panic)
  | .closing r => if c.st.over then (c, .ok false) else ({ c with st := .closing r }, .ok true)
  | .closed r =>
    match c.st with
    | .closed _ => (c, .ok false)
    | _ => ({ c with st := .closed r }, .ok true)
  | .other => (c, .ok false)

/-- neqo-http3/src/connection.rs:649-670 `handle_zero_rtt_rejected`, and
neqo-http3/src/connection_client.rs:976-980; a server never sees this event
(connection_server.rs:311-314). -/
def rejectZeroRtt (c : C) : C × Option Err :=
  match c.role with
  | .server => (c, some (.internal 4))
  | .client =>
    match c.st with
    | .zeroRtt =>
      (({ c with st := .initializing, ctl := none, enc := none, dec := none, remote := .notYet,
                 send := [], recv := [], sess := [] }).emit .zeroRttRejected, none)
    | _ => (c, some .panic)

/-- What sending came to for one stream: neqo-http3/src/send_message.rs:247-266,
features/extended_connect/webtransport_streams.rs:181-218, session.rs:218-226 `send`. -/
inductive Sent | more | all | fail (e : Err)
  deriving DecidableEq, Repr

/-- neqo-http3/src/connection.rs:407-428 `send_non_control_streams`, for one stream. -/
def sendOne (c : C) (id : Nat) (o : Sent) : C × Option Err :=
  match get c.send id with
  | none => (c, none)
  | some k =>
    match o with
    | .fail e => (c, some e)
    | .more =>
      match k with
      | .session _ => (if sessDone c id then (removeSend c id).1 else c, none)
      | _ => (c, none)
    | .all =>
      match k with
      | .http fin | .connect fin => (if fin then (removeSend c id).1 else c, none)
      | .wt s => ((removeSend (dropSubSend c s id) id).1, none)
      | .session fin =>
        match get c.sess id with
        | none => (c, none)
        | some s =>
          if fin then ((removeSend (c.setSess id { s with st := .done }) id).1, none)
          else (if sessDone c id then (removeSend c id).1 else c, none)

/-! ### What the application asks for -/

/-- neqo-http3/src/connection.rs:785-793 `close`, with what the client and the server add
(neqo-http3/src/connection_client.rs:483-498 `close`, connection_server.rs:238-244 `close`): the
client does nothing if it is closing already. -/
def closeWith (c : C) (code : Nat) : C :=
  match c.role with
  | .client =>
    if c.st.over then c
    else (({ c with st := .closing (.app code), send := [], recv := [], sess := [] }).emit (.closeConn code)).emit
      (.state (.closing (.app code)))
  | .server =>
    (({ c with st := .closing (.app code), send := [], recv := [], sess := [] }).emit (.closeConn code)).emit
      (.state (.closing (.app code)))

/-- neqo-http3/src/connection_client.rs:878-904 and neqo-http3/src/connection_server.rs:240-251
`check_result`: any error ends the connection. -/
def failWith (c : C) (e : Err) : C :=
  match e with
  | .panic => { c with dead := true }
  | .goaway => closeWith c (match c.role with | .client => 0x101 | .server => 3)
  | e => closeWith c e.code

/-- `check_result` applied to the outcome of handling an event. -/
def settle (x : C × Option Err) : C :=
  match x with
  | (c, none) => c
  | (c, some e) => failWith c e

/-- The kinds of request a client can make. -/
inductive Req | fetch | connect
  deriving DecidableEq, Repr

/-- neqo-http3/src/connection.rs:923-939 `create_bidi_transport_stream`. `id`: the stream the
transport gives, if there is one. -/
def openBidi (c : C) (id : Option Nat) : C × Except Err Nat :=
  match c.st with
  | .goingAway _ | .closing _ | .closed _ => (c, .error .alreadyClosed)
  | .initializing => (c, .error .unavailable)
  | _ =>
    match id with
    | none => (c, .error .streamLimit)
    | some i => (c.emit (.opened i), .ok i)

/-- neqo-http3/src/connection.rs:893-1003 `request` and `request_with_stream`. `bad`: the headers are
refused. -/
def request (c : C) (q : Req) (id : Option Nat) (bad : Option Err) : C × Except Err Nat :=
  match openBidi c id with
  | (c, .error e) => (c, .error e)
  | (c, .ok i) =>
    match bad with
    | some e => (c, .error e)
    | none =>
      match q with
      | .fetch => ({ c with send := put c.send i (.http false), recv := put c.recv i .http }, .ok i)
      | .connect =>
        ({ c with send := put c.send i (.connect false), recv := put c.recv i .connect }, .ok i)

/-- neqo-http3/src/connection.rs:1219-1258 `extended_connect_create_session`, and the check in
neqo-http3/src/webtransport.rs:436-438 and connect_udp.rs:175-177. -/
def createSession (c : C) (udp : Bool) (id : Option Nat) (bad : Option Err) : C × Except Err Nat :=
  if (if udp then c.udpF else c.wtF) ≠ .negotiated then (c, .error .unavailable)
  else
    match openBidi c id with
    | (c, .error e) => (c, .error e)
    | (c, .ok i) =>
      let c := (c.setSess i ⟨udp, .negotiating, false, [], [], []⟩)
      let c := { c with send := put c.send i (.session false), recv := put c.recv i .session }
      match bad with
      | some e => (c, .error e)
      | none => (c, .ok i)

/-- neqo-http3/src/connection.rs:1028-1043 `stream_reset_send`. -/
def resetSend (c : C) (id code : Nat) : C × Option Err :=
  if sendCritical c id then (c, some .invalidStreamId)
  else ((closeSend c id (.app code)).emit (.resetSend id code), none)

/-- neqo-http3/src/connection.rs:1067-1083 `stream_stop_sending`. -/
def stopRecv (c : C) (id code : Nat) : C × Option Err :=
  if recvCritical c id then (c, some .invalidStreamId)
  else
    match closeRecv c id (.app code) with
    | (c, some e) => (c, some e)
    | (c, none) => (c.emit (.stopSending id code), none)

/-- neqo-http3/src/connection.rs:1144-1193 `cancel_fetch`. The comparison of the two types is a
`debug_assert`. -/
def cancelFetch (c : C) (id code : Nat) : C × Option Err :=
  match get c.send id, get c.recv id with
  | none, none => (c, some .invalidStreamId)
  | some s, none =>
    match s with
    | .wt _ => (c, some .invalidStreamId)
    | _ => ((resetSend c id code).1, none)
  | none, some r =>
    match r with
    | .http | .push _ | .connect | .session => ((stopRecv c id code).1, none)
    | _ => (c, some .invalidStreamId)
  | some s, some r =>
    match s with
    | .wt _ => (c, some .invalidStreamId)
    | _ =>
      if s.ext == r.ext then ((stopRecv (resetSend c id code).1 id code).1, none)
      else (c, some .panic)

/-- `SendStream::close` of the handlers and what follows it in
neqo-http3/src/connection.rs:1195-1217 and 1457-1487. `now`: everything has been given to the
transport. For a session this is
neqo-http3/src/features/extended_connect/session.rs:366-388 `close_session`. -/
def finish (c : C) (id : Nat) (k : SK) (now : Bool) : C :=
  match k with
  | .http _ => if now then (removeSend c id).1 else { c with send := put c.send id (.http true) }
  | .connect _ =>
    if now then (removeSend c id).1 else { c with send := put c.send id (.connect true) }
  | .wt s => if now then (removeSend (dropSubSend c s id) id).1 else c
  | .session _ =>
    match get c.sess id with
    | none => c
    | some s =>
      if now then (removeSend (c.setSess id { s with st := .done }) id).1
      else
        let c := c.setSess id { s with st := .finPending }
        { c with send := put c.send id (.session true) }

/-- neqo-http3/src/connection.rs:1196-1217 `stream_close_send`. That the connection is active is a
`debug_assert`. -/
def closeSending (c : C) (id : Nat) (now : Bool) : C × Option Err :=
  if c.st.active then
    match get c.send id with
    | none => (c, some .invalidStreamId)
    | some k => (finish c id k now, none)
  else (c, some .panic)

/-- neqo-http3/src/connection.rs:1457-1487 `extended_connect_close_session`. -/
def endSession (c : C) (id : Nat) (udp now : Bool) : C × Option Err :=
  match getSession c id with
  | none => (c, some .invalidStreamId)
  | some s =>
    if s.udp != udp then (c, some .invalidStreamId)
    else
      match get c.send id with
      | some k => if k.ext then (finish c id k now, none) else (c, some .invalidStreamId)
      | none => (c, some .invalidStreamId)

/-- neqo-http3/src/connection.rs:1523-1563 `webtransport_create_stream_local_with_send_group`. `id`:
the stream the transport gives. -/
def openStream (c : C) (sid : Nat) (id : Option Nat) : C × Except Err Nat :=
  match getSession c sid with
  | none => (c, .error .invalidStreamId)
  | some s =>
    if s.st = .active then
      match id with
      | none => (c, .error .streamLimit)
      | some i =>
        match createStream (c.emit (.opened i)) sid s i true with
        | (c, some e) => (c, .error e)
        | (c, none) => (c, .ok i)
    else (c, .error .invalidStreamId)

/-- What a server answers to a request for a session; `ok` says whether the headers could be
sent. -/
inductive Answer | accept (udp ok : Bool) | reject (ok now : Bool)
  deriving DecidableEq, Repr

/-- neqo-http3/src/connection.rs:1260-1361 `extended_connect_session_accept` and
`do_accept_extended_connect`. -/
def answer (c : C) (id : Nat) (a : Answer) : C × Option Err :=
  match get c.send id, get c.recv id with
  | none, none => (c, some .invalidStreamId)
  | some _, none => ((cancelFetch c id rejected).1, some .invalidState)
  | none, some r =>
    if r = .connect then ((cancelFetch c id rejected).1, some .invalidState)
    else (c, some .invalidStreamId)
  | some _, some r =>
    if r ≠ .connect then (c, some .invalidStreamId)
    else
      match a with
      | .reject true now => closeSending c id now
      | .reject false _ => cancelFetch c id rejected
      | .accept udp true =>
        let c := c.setSess id ⟨udp, .active, false, [], [], []⟩
        ({ c with send := put c.send id (.session false), recv := put c.recv id .session }, none)
      | .accept _ false =>
        match cancelFetch c id rejected with
        | (c, some e) => (c, some e)
        | (c, none) => (c, some .invalidStreamId)

/-- neqo-http3/src/features/extended_connect/webtransport_streams.rs:73-85 `read_data`: the session
forgets a stream that has been read to its end. -/
def endWt (c : C) (id : Nat) (k : RK) (r : Read) : C :=
  match k, r with
  | .wt s, .ended => dropSubRecv c s id
  | _, _ => c

/-- neqo-http3/src/connection.rs:1003-1024 `read_data`, with the client and server parts
(connection_client.rs:686-702, connection_server.rs:434-450): a connection error closes. -/
def readData (c : C) (id : Nat) (r : Read) : C × Option Err :=
  match get c.recv id with
  | none => (c, some .invalidStreamId)
  | some k =>
    let o : Except Err (Output × Bool) :=
      match k with
      | .http | .push _ | .connect | .wt _ =>
        match r with
        | .ended => .ok (.none, true)
        | .fail e => .error e
        | _ => .ok (.none, false)
      | _ => .error .invalidStreamId
    match afterRead (endWt c id k r) id o with
    | (c, .ok _) => (c, none)
    | (c, .error e) => (if e.isConnection then closeWith c e.code else c, some e)

/-- neqo-http3/src/connection_client.rs:436-472 `enable_resumption` when 0-RTT is possible, and
neqo-http3/src/connection.rs:450-460 `set_0rtt_settings`. -/
def resume (c : C) (s : Sets) (uni : Option Nat) : C × Option Err :=
  match c.st with
  | .initializing =>
    match openOwn c uni with
    | (c, some e) => (c, some e)
    | (c, none) =>
      if qpackFits s then
        (({ c with remote := .zeroRtt s, st := .zeroRtt }).emit (.state .zeroRtt), none)
      else (c, some .qpackEncoder)
  | _ => (c, some .invalidState)

/-- Everything that can happen. The first group are events of the transport, handled in
neqo-http3/src/connection_client.rs:912-1003 and neqo-http3/src/connection_server.rs:263-324
`check_connection_events`; the second, calls of the application. -/
inductive Ev
  | opened (id : Nat)
  | readable (id : Nat) (i : In)
  | resetIn (id code : Nat)
  | stopIn (id code : Nat)
  | state (t : TSt) (uni : Option Nat)
  | zeroRttRejected
  | sent (id : Nat) (o : Sent)
  | resume (s : Sets) (uni : Option Nat)
  | request (q : Req) (id : Option Nat) (bad : Option Err)
  | createSession (udp : Bool) (id : Option Nat) (bad : Option Err)
  | answer (id : Nat) (a : Answer)
  | openStream (sid : Nat) (id : Option Nat)
  | endSession (id : Nat) (udp now : Bool)
  | resetSend (id code : Nat)
  | stopRecv (id code : Nat)
  | cancel (id code : Nat)
  | closeSending (id : Nat) (now : Bool)
  | readData (id : Nat) (r : Read)
  | sendGoaway (id : Nat)
  | close (code : Nat)

/-- An error given back to the application leaves the connection as it is, a panic does not. -/
def keep (x : C × Option Err) : C :=
  match x with
  | (c, some .panic) => { c with dead := true }
  | (c, _) => c

/-- `keep` for calls that give a stream. A connection error closes
(neqo-http3/src/connection_client.rs:546-551). -/
def keepId (x : C × Except Err Nat) : C :=
  match x with
  | (c, .ok _) => c
  | (c, .error .panic) => { c with dead := true }
  | (c, .error e) => if e.isConnection then closeWith c e.code else c

/-- neqo-http3/src/connection_client.rs:959-967 and neqo-http3/src/connection_server.rs:295-304: a
change of the transport's state. -/
def stateStep (c : C) (t : TSt) (uni : Option Nat) : C :=
  match stateChange c t uni with
  | (c, .error e) => failWith c e
  | (c, .ok true) => c.emit (.state c.st)
  | (c, .ok false) => c

/-- One step. Events of the transport are not looked at once the connection is closed
(neqo-http3/src/connection_client.rs:804, connection_server.rs:196-198), and sending takes place only
while it is active (connection_client.rs:795-803, connection_server.rs:201-204). -/
def step (c : C) (e : Ev) : C :=
  if c.dead then c
  else
    match e with
    | .opened id => if c.st.closedNow then c else { c with recv := put c.recv id .head }
    | .readable id i => if c.st.closedNow then c else settle (readable c id i)
    | .resetIn id code => if c.st.closedNow then c else settle (closeRecv c id (.remote code))
    | .stopIn id code => if c.st.closedNow then c else settle (handleStop c id code)
    | .state t uni => if c.st.closedNow then c else stateStep c t uni
    | .zeroRttRejected => if c.st.closedNow then c else settle (rejectZeroRtt c)
    | .sent id o => if c.st.active then settle (sendOne c id o) else c
    | .resume s uni => if c.role = .client then keep (resume c s uni) else c
    | .request q id bad => if c.role = .client then keepId (request c q id bad) else c
    | .createSession udp id bad =>
      if c.role = .client then keepId (createSession c udp id bad) else c
    | .answer id a => if c.role = .server then keep (answer c id a) else c
    | .openStream sid id => keepId (openStream c sid id)
    | .endSession id udp now => keep (endSession c id udp now)
    | .resetSend id code => keep (resetSend c id code)
    | .stopRecv id code => keep (stopRecv c id code)
    | .cancel id code => keep (cancelFetch c id code)
    | .closeSending id now => keep (closeSending c id now)
    | .readData id r => keep (readData c id r)
    | .sendGoaway id => if c.role = .server then c.emit (.sendGoaway id) else c
    | .close code => if c.role = .client then closeWith c code else c

/-- A run. -/
def run (c : C) : List Ev → C
  | [] => c
  | e :: t => run (step c e) t

end Neqo.H3c
