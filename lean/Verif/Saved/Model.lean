import Verif.Lib.Basic

/-!
# Datagrams that arrive before the keys to open them: `saved.rs`

The store of such datagrams with what `Connection` does around it: which packets
can be opened, which are kept for later, and when the kept ones are taken up again.

Simplified: what a packet does to the handshake is given by a function of
everything that was opened before; packets appear only by the keys they need and
by whether those keys open them.  Left out: errors that close the connection,
checks of connection IDs, stateless resets, Retry and version negotiation.
-/
namespace Neqo.Saved

/-- `enum Epoch` (crypto.rs via nss): the keys a packet needs. -/
inductive Ep where
  | initial
  | zeroRtt
  | handshake
  | app
  deriving Repr, DecidableEq

/-- A packet: the keys it needs, whether they open it (false for a forgery), and
which packet it is. -/
structure Pkt where
  ep : Ep
  auth : Bool
  tag : Nat
  deriving Repr, DecidableEq

/-- `struct SavedDatagram` (saved.rs:13-18): what is left of a datagram, from the
packet that could not be opened, and when it was received. -/
structure Dg where
  pkts : List Pkt
  t : Nat
  deriving Repr, DecidableEq

/-- `struct SavedDatagrams` (saved.rs:20-25). -/
structure Store where
  hs : List Dg
  app : List Dg
  avail : Option Ep
  deriving Repr, DecidableEq

/-- `SavedDatagrams::CAPACITY` (saved.rs:30). -/
def capacity : Nat := 4

/-- `SavedDatagrams::store` (saved.rs:32-38).  It panics for the two other levels,
for which keys are never pending (`Conn.status`). -/
def Store.of (s : Store) : Ep → List Dg
  | .handshake => s.hs
  | .app => s.app
  | _ => []

/-- The same, replaced. -/
def Store.set (s : Store) (e : Ep) (l : List Dg) : Store :=
  match e with
  | .handshake => { s with hs := l }
  | .app => { s with app := l }
  | _ => s

/-- `SavedDatagrams::save` (saved.rs:45-54); `none` when it is not saved. -/
def Store.save (s : Store) (e : Ep) (d : Dg) : Option Store :=
  if (s.of e).length < capacity then some (s.set e (s.of e ++ [d])) else none

/-- `SavedDatagrams::make_available` (saved.rs:56-62). -/
def Store.makeAvailable (s : Store) (e : Ep) : Store :=
  if (s.of e).isEmpty then s else { s with avail := some e }

/-- `SavedDatagrams::take_saved` (saved.rs:68-72). -/
def Store.take (s : Store) : List Dg × Store :=
  match s.avail with
  | none => ([], s)
  | some e => (s.of e, { s.set e [] with avail := none })

/-- What happens to the keys. -/
inductive KeyEv where
  /-- `Crypto::install_keys` installs Handshake keys (crypto.rs:266-297). -/
  | hsKeys
  /-- `Connection::set_connected` installs 1-RTT keys (connection/mod.rs:3760-3771). -/
  | connected
  /-- 0-RTT keys of a server are installed or dropped. -/
  | early (on : Bool)
  /-- `discard_keys` (connection/mod.rs:1414-1422). -/
  | discardInitial
  | discardHs
  deriving Repr, DecidableEq

/-- How far the connection is: `State::Init`, `State::WaitInitial`, or beyond. -/
inductive Phase where
  | init
  | wait
  | on
  deriving Repr, DecidableEq

/-- Why a packet is dropped. -/
inductive Why where
  | notStarted
  | forged
  | noKeys
  | full
  deriving Repr, DecidableEq

/-- The parts of `Connection` that matter here.  `initial`, `hs`, `app` and `early`:
the keys for reading are there.  `hsDone`: the secret for the Handshake keys was
taken from TLS, which gives it once.  `log`, `lost`, `evs` only record what
happened: the packets opened with the time they are taken to have arrived, the
packets dropped, and what happened to the keys during the last call.  `failed`:
the assertion of `process_saved` (connection/mod.rs:1463-1477) did not hold. -/
structure Conn where
  server : Bool
  phase : Phase
  initial : Bool
  hs : Bool
  hsDone : Bool
  app : Bool
  early : Bool
  store : Store
  log : List (Pkt × Nat)
  lost : List (Pkt × Nat × Why)
  evs : List KeyEv
  failed : Bool
  deriving Repr, DecidableEq

/-- A client that has sent its first Initial packet. -/
def Conn.client : Conn :=
  ⟨false, .wait, true, false, false, false, false, ⟨[], [], none⟩, [], [], [], false⟩

/-- A server's new connection. -/
def Conn.fresh : Conn :=
  ⟨true, .init, false, false, false, false, false, ⟨[], [], none⟩, [], [], [], false⟩

/-- One event.  Handshake keys are installed once (crypto.rs:280 takes the secret),
the handshake completes once (connection/mod.rs:3312) and not before there are
Handshake keys, and Handshake keys are discarded only when it is complete
(connection/mod.rs:2919, 3544). -/
def Conn.key (c : Conn) : KeyEv → Conn
  | .hsKeys =>
    if c.hsDone then c
    else { c with hs := true, hsDone := true, store := c.store.makeAvailable .handshake, evs := c.evs ++ [.hsKeys] }
  | .connected =>
    if c.app || !c.hsDone then c
    else { c with app := true, store := c.store.makeAvailable .app, evs := c.evs ++ [.connected] }
  | .early on => { c with early := on }
  | .discardInitial => { c with initial := false }
  | .discardHs => if c.app then { c with hs := false } else c

/-- Whether a packet can be opened now, later, or not at all. -/
inductive Status where
  | ready
  | pending
  | gone
  deriving Repr, DecidableEq

/-- `CryptoStates::rx_hp` (crypto.rs:1007-1042), `CryptoStates::rx_pending`
(crypto.rs:1052-1058), and their use in `packet::Public::decrypt`
(packet/mod.rs:935-948). -/
def Conn.status (c : Conn) : Ep → Status
  | .initial => if c.initial then .ready else .gone
  | .zeroRtt => if c.early then .ready else .gone
  | .handshake => if c.hs then .ready else if c.initial then .pending else .gone
  | .app => if c.app then .ready else .pending

/-- `preprocess_packet` (connection/mod.rs:1592-1624, 1674-1692): a server's
connection begins with an Initial packet, and drops anything before; later a
Handshake packet makes it discard Initial keys before the packet is opened. -/
def Conn.pre (c : Conn) (p : Pkt) : Option Conn :=
  match c.phase with
  | .init =>
    if p.ep = .initial then some { c with phase := .wait, initial := true } else none
  | .wait => some c
  | .on => some (if c.server ∧ p.ep = .handshake then { c with initial := false } else c)

/-- `process_packet` (connection/mod.rs:1954-2026), `postprocess_packet` (connection/mod.rs:1728-1795): `env`
says what the packet does to the keys, given what was opened before. -/
def Conn.process (env : List (Pkt × Nat) → Pkt → List KeyEv) (c : Conn) (p : Pkt) (t : Nat) : Conn :=
  let c' := (env c.log p).foldl Conn.key c
  { c' with log := c'.log ++ [(p, t)], phase := .on }

/-- Packets are dropped. -/
def Conn.lose (c : Conn) (why : Why) (ps : List Pkt) (t : Nat) : Conn :=
  { c with lost := c.lost ++ ps.map fun p => (p, t, why) }

/-- `save_datagram` (connection/mod.rs:1485-1503). -/
def Conn.save (c : Conn) (e : Ep) (ps : List Pkt) (t : Nat) : Conn :=
  match c.store.save e ⟨ps, t⟩ with
  | some s => { c with store := s }
  | none => c.lose .full ps t

/-- `input_path` (connection/mod.rs:1818-1937): the packets of one datagram that
was received at `t`. -/
def Conn.input (env : List (Pkt × Nat) → Pkt → List KeyEv) (t : Nat) : Conn → List Pkt → Conn
  | c, [] => c
  | c, p :: rest =>
    match c.pre p with
    | none => c.lose .notStarted (p :: rest) t
    | some c =>
      match c.status p.ep with
      | .ready =>
        if p.auth then Conn.input env t (c.process env p t) rest
        else Conn.input env t (c.lose .forged [p] t) rest
      | .pending => c.save p.ep (p :: rest) t
      | .gone => Conn.input env t (c.lose .noKeys [p] t) rest

/-- `process_saved` (connection/mod.rs:1463-1477).  `fuel` bounds the rounds of its
loop. -/
def Conn.processSaved (env : List (Pkt × Nat) → Pkt → List KeyEv) : Nat → Conn → Conn
  | 0, c => c
  | fuel + 1, c =>
    match c.store.avail with
    | none => c
    | some e =>
      let x := c.store.take
      Conn.processSaved env fuel (x.1.foldl (fun c d => c.input env d.t d.pkts)
        { c with store := x.2, failed := c.failed || decide (c.status e ≠ .ready) })

/-- What the application calls. -/
inductive Op where
  /-- `process_multiple_input` with these datagrams (connection/mod.rs:1142-1164), or
  `process` with one (connection/mod.rs:1313-1338). -/
  | receive (ds : List (List Pkt)) (now : Nat)
  /-- `authenticated` (connection/mod.rs:939-945); `done`: this completes the
  handshake. -/
  | authenticated (done : Bool)
  /-- `process_output` sends Handshake packets (connection/mod.rs:2915-2924). -/
  | sent
  deriving Repr, DecidableEq

/-- One call. -/
def Conn.step (env : List (Pkt × Nat) → Pkt → List KeyEv) (c : Conn) : Op → Conn
  | .receive ds now =>
    Conn.processSaved env 3 (ds.foldl (fun c d => c.input env now d) { c with evs := [] })
  | .authenticated done =>
    let c := { c with evs := [] }
    Conn.processSaved env 3 (if done then c.key .connected else c)
  | .sent =>
    let c : Conn := { c with evs := [] }
    if c.hs then c.key (if c.server then .discardHs else .discardInitial) else c

/-- A history. -/
def Conn.run (env : List (Pkt × Nat) → Pkt → List KeyEv) : Conn → List Op → Conn
  | c, [] => c
  | c, op :: ops => Conn.run env (c.step env op) ops

end Neqo.Saved
