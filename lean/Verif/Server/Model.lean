import Verif.Packet.Model
import Verif.Token.Model

/-!
# Model of `neqo-transport/src/server.rs`

Connections are anything that offers what the server uses of them.  Packets, tokens and
connection IDs are those of `Verif/Packet` and `Verif/Token`.
-/
namespace Neqo.Srv
open Neqo.Codec (Bytes)
open Neqo.Pkt (Version Ty Public PErr)
open Neqo.Av (Addr Cipher)

/-- `Datagram` (neqo-common/src/datagram.rs:20-25), without the type of service. -/
structure Dgram where
  src : Addr
  dst : Addr
  data : Bytes
  deriving Repr, DecidableEq

/-- `OutputBatch` (connection/mod.rs:126-134). -/
inductive Out where
  | none
  | dgrams (ds : List Dgram)
  | callback (delay : Nat)
  deriving Repr, DecidableEq

/-- What the server uses of `Connection`: `new_server` with `setup_connection`
(server.rs:328-351, 373-383; `none` if the connection cannot be made), `is_valid_local_cid`,
`process_input`, `process_multiple_output`, and whether its state is `Closed`. -/
structure Iface (C : Type) where
  new : Version → (scid dcid : Bytes) → (odcid : Option Bytes) → (now : Nat) → Option C
  valid : C → Bytes → Bool
  input : C → Dgram → Nat → C
  output : C → (now max : Nat) → C × Out
  closed : C → Bool

/-- What does not change in `struct Server` (server.rs:103-133).  `cid` is the decoder of the
connection ID generator, `genCid` and `rnd` are its results and the random bytes for each use,
`tag` is the integrity tag of Retry packets. -/
structure Config (C : Type) where
  conn : Iface C
  versions : List Version
  av : Av.Av
  cipher : Cipher
  cid : Bytes → Option (Bytes × Bytes)
  genCid : Nat → Option Bytes
  rnd : Nat → UInt8
  exp : Nat
  tag : Version → Bytes → Bytes

/-- What changes in `struct Server` (server.rs:103-133); `ctr` counts uses of random bytes. -/
structure Server (C : Type) where
  conns : List C
  saved : List (Dgram × Nat)
  ctr : Nat
  deriving Repr, DecidableEq

variable {C : Type}

/-- `Server::new` (server.rs:147-171). -/
def Server.new : Server C := ⟨[], [], 0⟩

/-- `InitialDetails` (server.rs:64-69). -/
structure Details where
  scid : Bytes
  dcid : Bytes
  token : Bytes
  version : Version
  deriving Repr, DecidableEq

/-- `Server::accept_connection` (server.rs:353-399), with `Connection::process`
(connection/mod.rs:1313-1343). -/
def accept (cfg : Config C) (s : Server C) (i : Details) (d : Dgram) (odcid : Option Bytes) (now : Nat) :
    Server C × Out :=
  match cfg.conn.new i.version i.scid i.dcid odcid now with
  | none => (s, .none)
  | some c =>
    let r := cfg.conn.output (cfg.conn.input c d now) now 1
    ({ s with conns := s.conns ++ [r.1] }, r.2)

/-- The Retry packet in `Server::handle_initial` (server.rs:254-305). -/
def sendRetry (cfg : Config C) (s : Server C) (i : Details) (d : Dgram) (now : Nat) : Server C × Out :=
  if i.dcid.length < 8 then (s, .none)
  else
    match cfg.av.generate cfg.cipher (some i.dcid) d.src now s.ctr with
    | none => (s, .none)
    | some token =>
      match cfg.genCid s.ctr with
      | none => ({ s with ctr := s.ctr + 1 }, .none)
      | some ncid =>
        match Pkt.retry (cfg.tag i.version) i.version i.scid ncid token i.dcid (cfg.rnd s.ctr) with
        | .error _ => ({ s with ctr := s.ctr + 1 }, .none)
        | .ok bs => ({ s with ctr := s.ctr + 1 }, .dgrams [⟨d.dst, d.src, bs⟩])

/-- `Server::handle_initial` (server.rs:228-307). -/
def handleInitial (cfg : Config C) (s : Server C) (i : Details) (d : Dgram) (now : Nat) : Except Err (Server C × Out) :=
  match cfg.av.validate cfg.cipher i.token d.src now with
  | .panic => .error .panic
  | .invalid => .ok (s, .none)
  | .pass => .ok (accept cfg s i d none now)
  | .validRetry odcid => .ok (accept cfg s i d (some odcid) now)
  | .validate => .ok (sendRetry cfg s i d now)

/-- The Version Negotiation packet (server.rs:482-515). -/
def sendVn (cfg : Config C) (s : Server C) (p : Public) (scid : Bytes) (d : Dgram) : Server C × Out :=
  if d.data.length < 1200 then (s, .none)
  else
    ({ s with ctr := s.ctr + 4 },
      .dgrams [⟨d.dst, d.src, Pkt.versionNegotiation scid p.dcid (p.version.getD 0) cfg.versions
        (cfg.rnd s.ctr) (cfg.rnd (s.ctr + 1)) (cfg.rnd (s.ctr + 2)) (cfg.rnd (s.ctr + 3))⟩])

/-- Whether a packet gets a Version Negotiation packet in answer (server.rs:474-481). -/
def unsupported (cfg : Config C) (p : Public) : Except Err Bool :=
  if p.ty = .otherVersion then .ok true
  else if p.ty = .initial then
    match p.version? with
    | none => .error .panic
    | some v => .ok (v ∉ cfg.versions)
  else .ok false

/-- What is done with an Initial packet for an unknown connection (server.rs:517-532). -/
def newInitial (cfg : Config C) (s : Server C) (p : Public) (d : Dgram) (now : Nat) : Except Err (Server C × Out) :=
  if d.data.length < 1200 then .ok (s, .none)
  else
    match p.scid, p.version? with
    | some scid, some v => handleInitial cfg s ⟨scid, p.dcid, p.token, v⟩ d now
    | _, _ => .error .panic

/-- What is done with a datagram for an unknown connection (server.rs:468-545). -/
def unknown (cfg : Config C) (s : Server C) (p : Public) (d : Dgram) (now : Nat) : Except Err (Server C × Out) :=
  if p.ty = .short then .ok (s, .none)
  else
    match unsupported cfg p with
    | .error e => .error e
    | .ok true =>
      match p.scid with
      | none => if d.data.length < 1200 then .ok (s, .none) else .error .panic
      | some scid => .ok (sendVn cfg s p scid d)
    | .ok false => if p.ty = .initial then newInitial cfg s p d now else .ok (s, .none)

/-- What is done with one datagram (server.rs:439-545). -/
def handle (cfg : Config C) (s : Server C) (d : Dgram) (now : Nat) : Except Err (Server C × Out) :=
  match Pkt.decodePublic cfg.cid cfg.exp true d.data with
  | .error e => if e = .panic then .error .panic else .ok (s, .none)
  | .ok (p, _) =>
    match s.conns.findIdx? (cfg.conn.valid · p.dcid) with
    | some i => .ok ({ s with conns := s.conns.modify i (cfg.conn.input · d now) }, .none)
    | none => unknown cfg s p d now

/-- The loops of `Server::process_multiple_input` and `Server::process_input` (server.rs:402-428,
431-544): datagrams with the time at which they arrived; gives those that are left when there
is something to send. -/
def drain (cfg : Config C) : List (Dgram × Nat) → Server C → Except Err (Server C × Option (List Dgram) × List (Dgram × Nat))
  | [], s => .ok (s, none, [])
  | (d, t) :: rest, s =>
    match handle cfg s d t with
    | .error e => .error e
    | .ok (s, .dgrams o) => .ok (s, some o, rest)
    | .ok (s, .none) => drain cfg rest s
    | .ok (s, .callback _) => drain cfg rest s

/-- `Server::process_multiple_input` (server.rs:402-428).  The datagrams that are left are
saved once, at the end. -/
def processInput (cfg : Config C) (s : Server C) (ds : List Dgram) (now : Nat) : Except Err (Server C × Option (List Dgram)) :=
  match drain cfg s.saved s with
  | .error e => .error e
  | .ok (s, some o, rest) => .ok ({ s with saved := rest ++ ds.map (·, now) }, some o)
  | .ok (s, none, _) =>
    match drain cfg (ds.map (·, now)) s with
    | .error e => .error e
    | .ok (s, o, rest) => .ok ({ s with saved := rest }, o)

/-- The smaller of two delays (server.rs:569-572). -/
def minDelay (cb : Option Nat) (n : Nat) : Nat :=
  match cb with
  | none => n
  | some m => min m n

/-- The loop in `Server::process_next_output` (server.rs:548-570). -/
def nextOutput (cfg : Config C) (now max : Nat) : List C → Option Nat → List C × Out
  | [], none => ([], .none)
  | [], some n => ([], .callback n)
  | c :: cs, cb =>
    match cfg.conn.output c now max with
    | (c, .dgrams o) => (c :: cs, .dgrams o)
    | (c, .none) => let r := nextOutput cfg now max cs cb; (c :: r.1, r.2)
    | (c, .callback n) => let r := nextOutput cfg now max cs (some (minDelay cb n)); (c :: r.1, r.2)

/-- `Server::process_multiple` (server.rs:592-615), with `Server::process_next_output`
(server.rs:548-570). -/
def process (cfg : Config C) (s : Server C) (ds : List Dgram) (now max : Nat) : Except Err (Server C × Out) :=
  match processInput cfg s ds now with
  | .error e => .error e
  | .ok (s, some o) => .ok (s, .dgrams o)
  | .ok (s, none) =>
    if s.saved ≠ [] then .error .panic
    else
      match nextOutput cfg now max s.conns none with
      | (cs, .dgrams o) => .ok ({ s with conns := cs }, .dgrams o)
      | (cs, o) => .ok ({ s with conns := cs.filter (fun c => !cfg.conn.closed c) }, o)

end Neqo.Srv
