import Verif.H3.Head

/-!
# Streams of WebTransport sessions:
`neqo-http3/src/features/extended_connect/webtransport_streams.rs`, and what
`neqo-http3/src/connection.rs` does with them
-/
namespace Neqo.H3
open Neqo.Codec

/-- `enum WebTransportSenderStreamState` (webtransport_streams.rs:117-122). -/
inductive WtState where
  | init (buf : Bytes) (fin : Bool)
  | sending
  | done
  deriving Repr, DecidableEq

/-- `struct WebTransportSendStream` (webtransport_streams.rs:124-133) with the
stream of the transport: what it has taken, how much of that it is to deliver even
if the stream is reset, and whether it has been closed.  `ended` counts the reports
that the stream has been closed; the session is left out. -/
structure WtSend where
  st : WtState
  out : Bytes := []
  committed : Nat := 0
  closed : Bool := false
  ended : Nat := 0
  deriving Repr, DecidableEq

/-- The transport, at the time of one call.  `room` is how much the stream takes,
`takes` whether it takes data at all (it does not after a reset), `known` whether the
transport still has the stream, `reliable` whether the peer supports reliable resets. -/
structure Tx where
  room : Nat
  takes : Bool := true
  known : Bool := true
  reliable : Bool := true
  deriving Repr, DecidableEq

inductive WtErr where
  | invalidStreamId | invalidInput | transport | notAvailable | flowControlLimit
  deriving Repr, DecidableEq

/-- The bytes that say what a stream is and to which session it belongs
(webtransport_streams.rs:147-158). -/
def wtPreface (uni : Bool) (session : Nat) : Option Bytes := do
  let t ← encodeVarint (if uni then 0x54 else 0x41)
  let i ← encodeVarint session
  pure (t ++ i)

/-- `WebTransportSendStream::new` (webtransport_streams.rs:136-167): a stream opened
here. -/
def WtSend.new (preface : Bytes) : WtSend := { st := .init preface false }

/-- `Connection::stream_send` (neqo-transport connection/mod.rs:3906-3908 and
send_stream.rs:1466-1520): how much is taken. -/
def WtSend.streamSend (s : WtSend) (tx : Tx) (data : Bytes) : Except WtErr (WtSend × Nat) :=
  if !tx.known then .error .invalidStreamId
  else if data = [] then .error .invalidInput
  else if !tx.takes || s.closed then .error .transport
  else .ok ({ s with out := s.out ++ data.take tx.room }, (data.take tx.room).length)

/-- `Connection::stream_commit` (neqo-transport connection/mod.rs:3985-3993 and
send_stream.rs:1558-1580). -/
def WtSend.streamCommit (s : WtSend) (tx : Tx) : Except WtErr WtSend :=
  if !tx.known then .error .invalidStreamId
  else if !tx.reliable then .error .notAvailable
  else if !tx.takes then .error .transport
  else .ok { s with committed := s.out.length }

/-- `Connection::stream_close_send` (neqo-transport connection/mod.rs). -/
def WtSend.streamClose (s : WtSend) (tx : Tx) : Except WtErr WtSend :=
  if !tx.known then .error .invalidStreamId
  else if !tx.takes then .ok s
  else .ok { s with closed := true }

/-- `set_done` (webtransport_streams.rs:184-188). -/
def WtSend.setDone (s : WtSend) : WtSend := { s with st := .done, ended := s.ended + 1 }

/-- After the whole preface has been taken (webtransport_streams.rs:204-222): the
state changes even if something fails. -/
def WtSend.prefaceSent (s : WtSend) (tx : Tx) (fin : Bool) : WtSend × Option WtErr :=
  let (s, res) : WtSend × Option WtErr :=
    match s.streamCommit tx with
    | .ok s' => (s', none)
    | .error .notAvailable => (s, none)
    | .error e => (s, some e)
  if fin then
    match s.streamClose tx with
    | .ok s' => (s'.setDone, res)
    | .error e => (s.setDone, res.or (some e))
  else ({ s with st := .sending }, res)

/-- `SendStream::send` (webtransport_streams.rs:198-229). -/
def WtSend.send (s : WtSend) (tx : Tx) : WtSend × Option WtErr :=
  match s.st with
  | .init buf fin =>
    match s.streamSend tx buf with
    | .error e => (s, some e)
    | .ok (s', sent) =>
      if sent = buf.length then s'.prefaceSent tx fin
      else ({ s' with st := .init (buf.drop sent) fin }, none)
  | _ => (s, none)

/-- `SendStream::commit` (webtransport_streams.rs:231-240). -/
def WtSend.commit (s : WtSend) (tx : Tx) : WtSend × Option WtErr :=
  match s.send tx with
  | (s', some e) => (s', some e)
  | (s', none) =>
    if s'.st = .sending then
      match s'.streamCommit tx with
      | .ok s'' => (s'', none)
      | .error e => (s', some e)
    else (s', some .flowControlLimit)

/-- `SendStream::has_data_to_send` (webtransport_streams.rs:242-247). -/
def WtSend.hasData (s : WtSend) : Bool :=
  match s.st with
  | .init _ _ => true
  | _ => false

/-- `SendStream::send_data` (webtransport_streams.rs:257-265). -/
def WtSend.sendData (s : WtSend) (tx tx' : Tx) (data : Bytes) : WtSend × Except WtErr Nat :=
  match s.send tx with
  | (s', some e) => (s', .error e)
  | (s', none) =>
    if s'.st = .sending then
      match s'.streamSend tx' data with
      | .ok (s'', n) => (s'', .ok n)
      | .error e => (s', .error e)
    else (s', .ok 0)

/-- `SendStream::close` (webtransport_streams.rs:271-280).  The caller drops the
error. -/
def WtSend.close (s : WtSend) (tx : Tx) : WtSend :=
  match s.st with
  | .init buf _ => { s with st := .init buf true }
  | _ =>
    let s' : WtSend := { s with st := .done }
    match s'.streamClose tx with
    | .ok s'' => s''.setDone
    | .error _ => s'

/-- What `Http3Connection` holds: whether the stream is in `send_streams`, and whether
it is in `streams_with_pending_data` (connection.rs:291-305).  `server` is set at a
server. -/
structure WtHandle where
  s : WtSend
  server : Bool := false
  present : Bool := true
  pending : Bool := false
  deriving Repr, DecidableEq

/-- `webtransport_create_stream_local` (connection.rs:1511-1527, with the
functions it calls, 1529-1650): only a bidirectional
stream is put with those that have something to send (`add_streams`,
connection.rs:1770-1781). -/
def WtHandle.new (server uni : Bool) (preface : Bytes) : WtHandle :=
  { s := .new preface, server := server, pending := !uni }

/-- What is done with the stream.  `write` has the transport twice: what is left of
the preface goes first. -/
inductive WtOp where
  | write (data : Bytes) (tx tx' : Tx)
  | close (tx : Tx)
  | commit (tx : Tx)
  | process (tx : Tx)
  | stop
  deriving Repr, DecidableEq

inductive WtRes where
  | accepted (n : Nat)
  | ok
  | failed (e : WtErr)
  deriving Repr, DecidableEq

/-- `Http3Client::send_data` (connection_client.rs:667-677) and
`Http3ServerHandler::send_data` (connection_server.rs:75-93). -/
def WtHandle.write (h : WtHandle) (data : Bytes) (tx tx' : Tx) : WtHandle × WtRes :=
  if !h.present then (h, .failed .invalidStreamId)
  else
    match h.s.sendData tx tx' data with
    | (s', .error e) => ({ h with s := s' }, .failed e)
    | (s', .ok n) => ({ h with s := s', pending := h.pending || (h.server && decide (0 < n)) }, .accepted n)

/-- `Http3Connection::stream_close_send` (connection.rs:1196-1217). -/
def WtHandle.close (h : WtHandle) (tx : Tx) : WtHandle × WtRes :=
  if !h.present then (h, .failed .invalidStreamId)
  else
    let s' := h.s.close tx
    if s'.st = .done then ({ h with s := s', present := false }, .ok)
    else ({ h with s := s', pending := h.pending || s'.hasData }, .ok)

/-- `Http3Connection::stream_commit` (connection.rs:1052-1065). -/
def WtHandle.commit (h : WtHandle) (tx : Tx) : WtHandle × WtRes :=
  if !h.present then (h, .failed .invalidStreamId)
  else
    match h.s.commit tx with
    | (s', some e) => ({ h with s := s' }, .failed e)
    | (s', none) => ({ h with s := s' }, .ok)

/-- This stream's part of `send_non_control_streams` (connection.rs:407-428).  An
error closes the connection. -/
def WtHandle.process (h : WtHandle) (tx : Tx) : WtHandle × WtRes :=
  if !h.pending then (h, .ok)
  else
    let h : WtHandle := { h with pending := false }
    if !h.present then (h, .ok)
    else
      match h.s.send tx with
      | (s', some e) => ({ h with s := s' }, .failed e)
      | (s', none) =>
        ({ h with s := s', pending := s'.hasData, present := decide (s'.st ≠ .done) }, .ok)

/-- The peer wants no more of the stream, or the application resets it: `close_send`
(connection.rs:1835-1839) and `handle_stop_sending` (webtransport_streams.rs:267-269). -/
def WtHandle.stop (h : WtHandle) : WtHandle × WtRes :=
  if h.present then ({ h with s := h.s.setDone, present := false }, .ok) else (h, .ok)

def WtHandle.step (h : WtHandle) : WtOp → WtHandle × WtRes
  | .write data tx tx' => h.write data tx tx'
  | .close tx => h.close tx
  | .commit tx => h.commit tx
  | .process tx => h.process tx
  | .stop => h.stop

def WtHandle.run (h : WtHandle) : List WtOp → WtHandle × List (WtOp × WtRes)
  | [] => (h, [])
  | op :: ops =>
    let (h', r) := h.step op
    let (h'', l) := h'.run ops
    (h'', (op, r) :: l)

/-! ## The counts of bytes -/

/-- The header whose length is subtracted (webtransport_streams.rs:88-99, 282-296). -/
def wtHeaderLen (uni : Bool) (session : Nat) : Option Nat := do
  let t ← varintLen (if uni then 0x54 else 0x41)
  let i ← varintLen session
  pure (t + i)

/-- `SendStream::stats` (webtransport_streams.rs:282-313) for one of the counts. -/
def wtSendCount (clientInitiated uni : Bool) (session count : Nat) : Option Nat := do
  let n ← wtHeaderLen uni session
  pure (if clientInitiated then count - n else count)

/-- `RecvStream::stats` (webtransport_streams.rs:87-114) for one of the counts. -/
def wtRecvCount (clientInitiated uni : Bool) (session count : Nat) : Option Nat := do
  let n ← wtHeaderLen uni session
  pure (if clientInitiated then count else count - n)

end Neqo.H3

namespace Neqo.H3.Spec
open Neqo.Codec (Bytes)
open Neqo.H3

/-- What the application was told has been accepted. -/
def wtAccepted : List (WtOp × WtRes) → Bytes
  | [] => []
  | (.write data _ _, .accepted n) :: l => data.take n ++ wtAccepted l
  | _ :: l => wtAccepted l

/-- The application has closed the stream. -/
def wtClosed : List (WtOp × WtRes) → Bool
  | [] => false
  | (.close _, .ok) :: _ => true
  | _ :: l => wtClosed l

/-- The transport works: it has the stream, which takes some data. -/
def Tx.Works (tx : Tx) : Prop := tx.known = true ∧ tx.takes = true ∧ 0 < tx.room

end Neqo.H3.Spec
