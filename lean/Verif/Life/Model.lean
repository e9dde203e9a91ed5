import Verif.Lib.Basic

/-!
How a connection comes up and closes down: the state, the signals to the peer (HANDSHAKE_DONE and
CONNECTION_CLOSE), the closing timer and the announcements to the application
(neqo-transport/src/connection/state.rs and the functions of connection/mod.rs that change the state).

What the rest of the connection does is given by the inputs: the frames of a packet are reduced to what they
mean for the state, and every function that can fail has an input that says whether, and with what error, it
fails.  All combinations of these inputs are allowed.  Not modelled: which frames may be in which packet (C61),
version negotiation beyond its effect on the state (C76), sizes (C87), statistics and logs.  A failed
`debug_assert!` is an error.
-/
namespace Neqo.Life

/-- A failed assertion. -/
inductive Panic where
  | panic
deriving DecidableEq, Repr

/-- `Error` (lib.rs:97-210): the place of the variant in the declaration and what it carries.  The derived order
compares these in turn. -/
structure Error where
  place : Nat
  code : Nat := 0
deriving DecidableEq, Repr

def internal : Error := ⟨1, 0⟩
def protocolViolation : Error := ⟨9, 0⟩
def idleTimeout : Error := ⟨23, 0⟩
def keysExhausted : Error := ⟨32, 0⟩
def noAvailablePath : Error := ⟨35, 0⟩
def peerApplication (code : Nat) : Error := ⟨40, code⟩
def peer (code : Nat) : Error := ⟨41, code⟩
def statelessReset : Error := ⟨42, 0⟩
def tooManyPtos : Error := ⟨43, 0⟩
def versionNegotiation : Error := ⟨48, 0⟩

/-- `CloseReason` (lib.rs:264-267). -/
inductive Reason where
  | transport (e : Error)
  | application (code : Nat)
deriving DecidableEq, Repr

/-- The derived order of errors. -/
def Error.lt (a b : Error) : Bool := a.place < b.place || (a.place = b.place && a.code < b.code)

/-- The derived order of reasons (lib.rs:263). -/
def Reason.lt : Reason → Reason → Bool
  | .transport a, .transport b => a.lt b
  | .transport _, .application _ => true
  | .application _, .transport _ => false
  | .application a, .application b => a < b

/-- `State` (connection/state.rs:21-45). -/
inductive St where
  | init | waitInitial | waitVersion | handshaking | connected | confirmed
  | closing (r : Reason) (timeout : Nat)
  | draining (r : Reason) (timeout : Nat)
  | closed (r : Reason)
deriving DecidableEq, Repr

namespace St

/-- The place of the variant, which `mem::discriminant` compares. -/
def place : St → Nat
  | init => 0 | waitInitial => 1 | waitVersion => 2 | handshaking => 3 | connected => 4 | confirmed => 5
  | closing .. => 6 | draining .. => 7 | closed .. => 8

/-- The derived order of `State` (connection/state.rs:19). -/
def lt (a b : St) : Bool :=
  a.place < b.place ||
  match a, b with
  | closing r t, closing r' t' | draining r t, draining r' t' => r.lt r' || (r = r' && t < t')
  | closed r, closed r' => r.lt r'
  | _, _ => false

/-- `State::connected` (connection/state.rs:49-51). -/
def isConnected : St → Bool
  | connected | confirmed => true
  | _ => false

/-- `State::closed` (connection/state.rs:54-59). -/
def isClosed : St → Bool
  | closing .. | draining .. | closed .. => true
  | _ => false

/-- `State::closing` (connection/state.rs:73-75). -/
def isClosing : St → Bool
  | closing .. | draining .. => true
  | _ => false

/-- `State::error` (connection/state.rs:62-70). -/
def reason : St → Option Reason
  | closing r _ | draining r _ | closed r => some r
  | _ => none

end St

/-- `StateSignaling` (connection/state.rs:165-175).  Of `ClosingFrame` the reason is kept. -/
inductive Sig where
  | idle | done | closing (r : Reason) | draining (r : Reason) | closeSent (r : Option Reason) | reset
deriving DecidableEq, Repr

namespace Sig

/-- `StateSignaling::handshake_done` (connection/state.rs:178-183). -/
def handshakeDone : Sig → Sig
  | idle => done
  | s => s

/-- `StateSignaling::write_done` (connection/state.rs:185-194); `room` says that a byte is left. -/
def writeDone (room : Bool) : Sig → Sig × Bool
  | done => if room then (idle, true) else (done, false)
  | s => (s, false)

/-- `StateSignaling::close` (connection/state.rs:196-206). -/
def close (r : Reason) : Sig → Sig
  | reset => reset
  | _ => closing r

/-- `StateSignaling::drain` (connection/state.rs:208-218). -/
def drain (r : Reason) : Sig → Sig
  | reset => reset
  | _ => draining r

/-- `StateSignaling::close_frame` (connection/state.rs:221-237). -/
def closeFrame : Sig → Sig × Option Reason
  | closing r => (closeSent (some r), some r)
  | draining r => (closeSent none, some r)
  | s => (s, none)

/-- `StateSignaling::send_close` (connection/state.rs:240-244). -/
def sendClose : Sig → Sig
  | closeSent (some r) => closing r
  | s => s

end Sig

/-- What the application is told. -/
inductive Ev where
  | state (s : St)
  | newStream
deriving DecidableEq, Repr

/-- The connection.  `told` is everything announced to the application so far, the newest first. -/
structure Conn where
  client : Bool
  st : St
  sig : Sig
  /-- The number of streams. -/
  streams : Nat
  told : List Ev
deriving DecidableEq, Repr

namespace Conn

/-- A new connection (connection/mod.rs:451-507). -/
def new (client : Bool) : Conn := { client, st := .init, sig := .idle, streams := 0, told := [] }

/-- `set_state` (connection/mod.rs:3782-3804). -/
def setState (c : Conn) (s : St) : Except Panic Conn :=
  if c.st.lt s then
    .ok { c with st := s, streams := if s.isClosed then 0 else c.streams, told := .state s :: c.told }
  else if s.place = c.st.place then .ok c
  else if s.isClosing && c.st.isClosed then .ok c
  else .error .panic

/-- What `capture_error` needs: whether a path is given or there is a primary path, and the PTO. -/
structure Env where
  path : Bool
  pto : Nat
deriving DecidableEq, Repr

/-- `capture_error` (connection/mod.rs:984-1040) for an error. -/
def capture (c : Conn) (v : Env) (now : Nat) (e : Error) : Except Panic Conn :=
  match c.st with
  | .closing .. | .draining .. | .closed .. => .ok c
  | .init => c.setState (.closed (.transport e))
  | .waitInitial | .waitVersion =>
    { c with sig := if v.path then c.sig.close (.transport e) else c.sig }.setState (.closed (.transport e))
  | _ =>
    if v.path then
      { c with sig := c.sig.close (.transport e) }.setState
        (if e = keysExhausted then .closed (.transport e) else .closing (.transport e) (now + v.pto * 3))
    else c.setState (.closed (.transport e))

/-- `capture_error` for a result; `none` stands for `Ok`. -/
def absorb (c : Conn) (v : Env) (now : Nat) : Option Error → Except Panic Conn
  | none => .ok c
  | some e => c.capture v now e

/-- `Connection::close` (connection/mod.rs:3051-3064). -/
def close (c : Conn) (v : Env) (now code : Nat) : Except Panic Conn :=
  if v.path then
    { c with sig := c.sig.close (.application code) }.setState (.closing (.application code) (now + v.pto * 3))
  else c.setState (.closed (.application code))

/-- `set_confirmed` (connection/mod.rs:3340-3352); the start of PMTUD can fail. -/
def setConfirmed (c : Conn) (fail : Option Error) : Except Panic (Conn × Option Error) :=
  match c.setState .confirmed with
  | .error p => .error p
  | .ok c => .ok (c, fail)

/-- `set_connected` (connection/mod.rs:3715-3780).  `fail` is an error found before the state changes, `late`
one found after. -/
def setConnected (c : Conn) (fail late : Option Error) : Except Panic (Conn × Option Error) :=
  match fail with
  | some e => .ok (c, some e)
  | none =>
    match c.setState .connected with
    | .error p => .error p
    | .ok c => if c.client then .ok (c, late) else { c with sig := c.sig.handshakeDone }.setConfirmed late

/-- `handshake` when TLS reports completion (connection/mod.rs:3306-3310), followed by the rest of the
function, which can fail. -/
def complete (c : Conn) (fail late : Option Error) : Except Panic (Conn × Option Error) :=
  if c.st.isConnected then .ok (c, late) else c.setConnected fail late

/-- A frame, as far as the state is concerned. -/
inductive Fr where
  /-- A frame that changes nothing here. -/
  | plain
  /-- A frame that opens a stream. -/
  | stream
  /-- A frame that cannot be decoded, is not allowed or is refused. -/
  | bad (e : Error)
  /-- CONNECTION_CLOSE; from the application or not. -/
  | close (app : Bool) (code : Nat)
  /-- HANDSHAKE_DONE; what follows the change of state can fail. -/
  | done (late : Option Error)
  /-- CRYPTO data that completes the handshake. -/
  | complete (fail late : Option Error)
deriving DecidableEq, Repr

/-- `input_frame` (connection/mod.rs:3355-3574). -/
def frame (c : Conn) (v : Env) (now : Nat) : Fr → Except Panic (Conn × Option Error)
  | .plain => .ok (c, none)
  | .stream => .ok ({ c with streams := c.streams + 1, told := .newStream :: c.told }, none)
  | .bad e => .ok (c, some e)
  | .close app code =>
    let r := Reason.transport (if app then peerApplication code else peer code)
    match { c with sig := c.sig.drain r }.setState (.draining r (now + v.pto * 3)) with
    | .error p => .error p
    | .ok c => .ok (c, none)
  | .done late =>
    if !c.client || !c.st.isConnected then .ok (c, some protocolViolation) else c.setConfirmed late
  | .complete fail late => c.complete fail late

/-- The loop of `process_packet` (connection/mod.rs:1982-2003): the first frame with an error ends it, after
`capture_error`. -/
def frames (c : Conn) (v : Env) (now : Nat) : List Fr → Except Panic (Conn × Option Error)
  | [] => .ok (c, none)
  | f :: fs =>
    match c.frame v now f with
    | .error p => .error p
    | .ok (c, some e) =>
      match c.capture v now e with
      | .error p => .error p
      | .ok c => .ok (c, some e)
    | .ok (c, none) => c.frames v now fs

/-- `process_packet` (connection/mod.rs:1954-2026); recording the packet can fail. -/
def processPacket (c : Conn) (v : Env) (now : Nat) (fs : List Fr) (late : Option Error) :
    Except Panic (Conn × Option Error) :=
  if fs = [] then .ok (c, some protocolViolation)
  else
    match c.frames v now fs with
    | .error p => .error p
    | .ok (c, some e) => .ok (c, some e)
    | .ok (c, none) => .ok (c, late)

/-- `postprocess_packet` (connection/mod.rs:1728-1795): `hasVersion` is the answer of `has_version`. -/
def postprocess (c : Conn) (hasVersion : Bool) : Except Panic Conn :=
  match c.st with
  | .waitInitial | .waitVersion => c.setState (if hasVersion then .handshaking else .waitVersion)
  | _ => .ok c

/-- What becomes of a packet that is to be decrypted (connection/mod.rs:1856-1937). -/
inductive Body where
  /-- It is genuine. -/
  | opened (frames : List Fr) (late : Option Error) (hasVersion : Bool)
  /-- It is genuine and was received before. -/
  | again
  /-- It is genuine; its space is not tracked any more. -/
  | untracked
  /-- The keys are not there yet; it is saved. -/
  | pending
  /-- The keys are exhausted or a genuine packet breaks the protocol. -/
  | fatal (e : Error)
  /-- It cannot be decrypted.  `reset`: it ends in the stateless reset token of the peer; `discarded`: keys of
  the Handshake space were discarded. -/
  | failed (reset discarded : Bool)
deriving DecidableEq, Repr

/-- A packet as `preprocess_packet` sees it (connection/mod.rs:1554-1698). -/
inductive Pkt where
  /-- It cannot be decoded. -/
  | garbage
  /-- It is dropped before the state is looked at: another destination connection ID than the packet before,
  an Initial or Handshake packet for a client from another address, an Initial with a token for a client. -/
  | foreign
  /-- Version Negotiation; `restart`: `some true` is a new start, `some false` no version in common, `none` that
  it is not valid.  `fail` is an error of the checks or the new start. -/
  | vn (restart : Option Bool) (fail : Option Error)
  /-- Retry. -/
  | retry (fail : Option Error)
  /-- Another version. -/
  | other
  /-- Initial, 0-RTT, Handshake or short.  `initial`: an Initial packet; `first`: what a server that waits for
  its first packet finds: an error, or whether the packet will do; `valid`: its destination connection ID is
  one of ours. -/
  | normal (initial : Bool) (first : Except Error Bool) (valid : Bool) (body : Body)
deriving DecidableEq, Repr

/-- How `preprocess_packet` ends: `Continue`, `Next`, `End` or an error. -/
inductive Pre where
  | go | next | stop | fail (e : Error)
deriving DecidableEq, Repr

/-- The last part of `preprocess_packet`, by state (connection/mod.rs:1670-1722). -/
def byState (c : Conn) (valid : Bool) : Conn × Pre :=
  match c.st with
  | .init => (c, .next)
  | .waitInitial => (c, .go)
  | .closing .. => ({ c with sig := c.sig.sendClose }, .next)
  | .draining .. | .closed .. => (c, .next)
  | _ => (c, if valid then .go else .next)

/-- `preprocess_packet` (connection/mod.rs:1555-1724), with `version_negotiation` (1506-1550).  On a new start
the connection is replaced by a new one. -/
def preprocess (c : Conn) : Pkt → Except Panic (Conn × Pre)
  | .garbage | .foreign => .ok (c, .next)
  | .vn restart fail =>
    if c.st = .waitInitial ∧ c.client then
      match fail, restart with
      | some e, _ => .ok (c, .fail e)
      | none, none => .ok (c, .stop)
      | none, some true => .ok (Conn.new true, .stop)
      | none, some false =>
        match c.setState (.closed (.transport versionNegotiation)) with
        | .error p => .error p
        | .ok c => .ok (c, .fail versionNegotiation)
    else .ok (c, .next)
  | .retry fail =>
    if c.st = .waitInitial ∧ c.client then
      match fail with
      | some e => .ok (c, .fail e)
      | none => .ok (c, .next)
    else .ok (c, .next)
  | .other => .ok (c, .next)
  | .normal initial first valid _ =>
    if c.st = .init ∧ !c.client ∧ initial then
      match first with
      | .error e => .ok (c, .fail e)
      | .ok false => .ok (c, .next)
      | .ok true =>
        match c.setState .waitInitial with
        | .error p => .error p
        | .ok c => .ok (c.byState valid)
    else .ok (c.byState valid)

/-- `check_stateless_reset` (connection/mod.rs:1434-1460): `token` says that the bytes end in the token. -/
def checkReset (c : Conn) (v : Env) (now : Nat) (token first : Bool) : Except Panic (Conn × Option Error) :=
  if first && token && c.st.isConnected then
    match { c with sig := .reset }.setState (.draining (.transport statelessReset) (now + v.pto * 3)) with
    | .error p => .error p
    | .ok c => .ok (c, some statelessReset)
  else .ok (c, none)

/-- `handle_keys_discarded` (connection/mod.rs:1940-1951) for Handshake keys. -/
def keysDiscarded (c : Conn) : Conn :=
  if !c.client && c.st = .confirmed then { c with sig := c.sig.handshakeDone } else c

/-- One turn of the loop of `input_path` after `preprocess_packet` said `Continue`
(connection/mod.rs:1856-1937).  The flag says whether to go on with the next packet. -/
def body (c : Conn) (v : Env) (now : Nat) (first : Bool) : Body → Except Panic (Conn × Option Error × Bool)
  | .opened fs late hasVersion =>
    match c.processPacket v now fs late with
    | .error p => .error p
    | .ok (c, some e) => .ok (c, some e, false)
    | .ok (c, none) =>
      match c.postprocess hasVersion with
      | .error p => .error p
      | .ok c => .ok (c, none, true)
  | .again => .ok (c, none, true)
  | .untracked => .ok (c, some protocolViolation, false)
  | .pending => .ok (c, none, false)
  | .fatal e => .ok (c, some e, false)
  | .failed token discarded =>
    match (if discarded then c.keysDiscarded else c).checkReset v now token first with
    | .error p => .error p
    | .ok (c, some e) => .ok (c, some e, false)
    | .ok (c, none) => .ok (c, none, true)

/-- The loop of `input_path` (connection/mod.rs:1818-1937).  `first` says that no packet was handled; `token` that
the datagram ends in the stateless reset token. -/
def packets (c : Conn) (v : Env) (now : Nat) (token : Bool) : Bool → List Pkt → Except Panic (Conn × Option Error)
  | first, [] => c.checkReset v now token first
  | first, p :: ps =>
    match c.preprocess p with
    | .error q => .error q
    | .ok (c, .next) => c.checkReset v now token first
    | .ok (c, .stop) => .ok (c, none)
    | .ok (c, .fail e) => .ok (c, some e)
    | .ok (c, .go) =>
      match p with
      | .normal _ _ _ b =>
        match c.body v now first b with
        | .error q => .error q
        | .ok (c, some e, _) => .ok (c, some e)
        | .ok (c, none, true) => c.packets v now token false ps
        | .ok (c, none, false) => .ok (c, none)
      | _ => .ok (c, none)

/-- `input` (connection/mod.rs:1799-1816): `received` is when the datagram came, which is before `now` for one
that was saved. -/
def input (c : Conn) (v : Env) (received now : Nat) (token : Bool) (ps : List Pkt) : Except Panic Conn :=
  match c.packets v received token true ps with
  | .error p => .error p
  | .ok (c, e) => c.absorb { v with path := true } now e

/-- What the parts behind the timers say: the idle timer expired; the key update timer fails; too many PTOs; the
last path failed. -/
structure Timers where
  idle : Bool
  keys : Option Error
  ptos : Bool
  noPath : Bool
deriving DecidableEq, Repr

/-- `process_timer` after the check for the end of the closing period (connection/mod.rs:1067-1132). -/
def timerRest (c : Conn) (v : Env) (now : Nat) (t : Timers) : Except Panic Conn :=
  if t.idle then c.setState (.closed (.transport idleTimeout))
  else if c.st.isClosing then .ok c
  else
    match c.absorb v now t.keys with
    | .error p => .error p
    | .ok c =>
      if t.ptos && c.st.isConnected then c.setState (.closed (.transport tooManyPtos))
      else if t.noPath then c.capture v now noAvailablePath
      else .ok c

/-- `process_timer` (connection/mod.rs:1048-1128). -/
def processTimer (c : Conn) (v : Env) (now : Nat) (t : Timers) : Except Panic Conn :=
  match c.st with
  | .waitInitial => if c.client then c.timerRest v now t else .error .panic
  | .closing r timeout | .draining r timeout =>
    if timeout ≤ now then c.setState (.closed r) else c.timerRest v now t
  | .closed _ => .ok c
  | _ => c.timerRest v now t

/-- What is put on the wire. -/
inductive Out where
  | none
  /-- Ordinary packets, with HANDSHAKE_DONE or not. -/
  | data (done : Bool)
  /-- CONNECTION_CLOSE. -/
  | close (r : Reason)
deriving DecidableEq, Repr

/-- What the parts behind the output say: whether the path of a closing frame is only temporary, whether there
is something to send and may be sent, or the error; and whether 1-RTT frames are written. -/
structure Writer where
  temporary : Bool
  result : Except Error Bool
  appdata : Bool
deriving DecidableEq, Repr

/-- `output` (connection/mod.rs:2283-2324). -/
def output (c : Conn) (v : Env) (now : Nat) (w : Writer) : Except Panic (Conn × Out) :=
  if c.st.isClosed then
    match c.sig.closeFrame with
    | (sig, none) => .ok ({ c with sig }, .none)
    | (sig, some r) =>
      match (if w.temporary then .error internal else w.result) with
      | .ok true => .ok ({ c with sig }, .close r)
      | .ok false => .ok ({ c with sig }, .none)
      | .error e =>
        match { c with sig }.capture { v with path := true } now e with
        | .error p => .error p
        | .ok c => .ok (c, .none)
  else
    match w.result with
    | .ok false => .ok (c, .none)
    | .ok true =>
      if !c.client && w.appdata then
        .ok ({ c with sig := (c.sig.writeDone true).1 }, .data (c.sig.writeDone true).2)
      else .ok (c, .data false)
    | .error e =>
      match c.capture { v with path := true } now e with
      | .error p => .error p
      | .ok c => .ok (c, .none)

/-- `client_start` (connection/mod.rs:3009-3043); it can fail before and after the change of state. -/
def clientStart (c : Conn) (v : Env) (now : Nat) (fail late : Option Error) : Except Panic Conn :=
  match fail with
  | some e => c.capture v now e
  | none =>
    match c.setState .waitInitial with
    | .error p => .error p
    | .ok c => c.absorb v now late

/-- The first part of `process_multiple_output` (connection/mod.rs:1272-1283).  `none`: the function returns
at once. -/
def before (c : Conn) (v : Env) (now : Nat) (t : Timers) (fail late : Option Error) : Except Panic (Option Conn) :=
  match c.st, c.client with
  | .init, true => (c.clientStart v now fail late).map some
  | .init, false | .waitInitial, false => .ok none
  | _, _ => (c.processTimer v now t).map some

/-- `process_multiple_output` (connection/mod.rs:1265-1294) up to the callback, which is `callback`. -/
def processOutput (c : Conn) (v : Env) (now : Nat) (t : Timers) (fail late : Option Error) (w : Writer) :
    Except Panic (Conn × Out) :=
  match c.before v now t fail late with
  | .error p => .error p
  | .ok none => .ok (c, .none)
  | .ok (some c) => c.output v now w

/-- The callback that `process_multiple_output` asks for if it has nothing to send (`next_delay`,
connection/mod.rs:1167-1226): none, or the delay.  `timers` are the times of the other timers. -/
def callback (c : Conn) (now : Nat) (timers : List Nat) : Option Nat :=
  match c.st with
  | .init | .closed _ => none
  | .closing _ t | .draining _ t => some (t - now)
  | _ => timers.min?.map (· - now)

/-- `stream_create` (connection/mod.rs:3813-3829), given the answer of the rest. -/
def create (c : Conn) (zeroRtt room : Bool) : Conn × Bool :=
  match c.st with
  | .closing .. | .draining .. | .closed .. => (c, false)
  | .waitInitial | .handshaking =>
    if c.client && !zeroRtt then (c, false)
    else if room then ({ c with streams := c.streams + 1 }, true) else (c, false)
  | _ => if room then ({ c with streams := c.streams + 1 }, true) else (c, false)

end Conn

/-- What can happen to a connection. -/
inductive Op where
  /-- The application closes. -/
  | close (v : Conn.Env) (now code : Nat)
  /-- The application says that the certificate is fine: TLS completes, fails or goes on. -/
  | authenticated (v : Conn.Env) (now : Nat) (r : Option (Option Error × Option Error)) (fail : Option Error)
  /-- A datagram. -/
  | input (v : Conn.Env) (received now : Nat) (token : Bool) (ps : List Conn.Pkt)
  /-- The application asks for output. -/
  | output (v : Conn.Env) (now : Nat) (t : Conn.Timers) (fail late : Option Error) (w : Conn.Writer)
  /-- A packet with HANDSHAKE_DONE is lost. -/
  | doneLost
  /-- The application makes a stream. -/
  | create (zeroRtt room : Bool)
deriving DecidableEq, Repr

namespace Conn

/-- `authenticated` (connection/mod.rs:939-945). -/
def authenticated (c : Conn) (v : Env) (now : Nat) (r : Option (Option Error × Option Error))
    (fail : Option Error) : Except Panic Conn :=
  match r with
  | none => c.absorb v now fail
  | some (f, l) =>
    match c.complete f l with
    | .error p => .error p
    | .ok (c, e) => c.absorb v now e

/-- One step. -/
def step (c : Conn) : Op → Except Panic (Conn × Out)
  | .close v now code => (c.close v now code).map (·, .none)
  | .authenticated v now r fail => (c.authenticated v now r fail).map (·, .none)
  | .input v received now token ps => (c.input v received now token ps).map (·, .none)
  | .output v now t fail late w => c.processOutput v now t fail late w
  | .doneLost => .ok ({ c with sig := c.sig.handshakeDone }, .none)
  | .create z room => .ok ((c.create z room).1, .none)

end Conn

/-- A connection with what it put on the wire (the newest first). -/
structure Hist where
  c : Conn
  ops : List Op
  sent : List Conn.Out

def Hist.new (client : Bool) : Hist := ⟨Conn.new client, [], []⟩

/-- One step of the history. -/
def Hist.step (h : Hist) (op : Op) : Except Panic Hist :=
  match h.c.step op with
  | .error p => .error p
  | .ok (c, o) => .ok ⟨c, op :: h.ops, o :: h.sent⟩

/-- Many steps. -/
def Hist.run (h : Hist) : List Op → Except Panic Hist
  | [] => .ok h
  | op :: ops =>
    match h.step op with
    | .error p => .error p
    | .ok h => h.run ops

end Neqo.Life
