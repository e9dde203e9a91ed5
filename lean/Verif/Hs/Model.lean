import Verif.Packet.Model

/-!
# Agreeing on a version and on connection IDs during the handshake

Models version.rs, the parts of tparams.rs about `version_information` and the parts of
connection/mod.rs about Version Negotiation, Retry, and the validation of versions and
connection IDs (neqo-transport/src).

Cryptography is abstract: Initial keys are identified by the version and the connection ID
that they are derived from, the integrity tag of a Retry by the connection ID it was
computed for, and TLS by what it hands over to the connection.  `draft-29` is taken to be
enabled.  Tests of packets that only drop some of them (addresses, destination connection
IDs, duplicates) are left out, so that the model has more runs than the code.
-/
namespace Neqo.Hs
open Neqo.Codec (Bytes)
open Neqo.Pkt (Version)

/-- `Version::is_compatible` (version.rs:104-110). -/
def compatible (a b : Version) : Bool :=
  a == b || (match a, b with
    | .v1, .v2 => true
    | .v2, .v1 => true
    | _, _ => false)

/-- `Version::is_draft` (version.rs:95-100). -/
def isDraft (v : Version) : Bool := v == .draft29

/-- `struct Config` (version.rs:149-175). -/
structure Config where
  initial : Version
  all : List Version
  deriving Repr, DecidableEq

/-- `Config::new` (version.rs:179-182); it panics if `initial` is not in `all`. -/
def Config.new (initial : Version) (all : List Version) : Except Err Config :=
  if initial ∈ all then .ok { initial, all } else .error .panic

/-- `Config::set_initial` (version.rs:196-203). -/
def Config.setInitial (c : Config) (v : Version) : Except Err Config :=
  if v ∈ c.all then .ok { c with initial := v } else .error .panic

/-- `Config::compatible` (version.rs:205-207) with `Version::compatible` (version.rs:123-128). -/
def Config.compatible (c : Config) : List Version := c.all.filter fun v => Hs.compatible c.initial v

/-- `Config::find_preferred` (version.rs:209-219). -/
def findPreferred : List Version → List Nat → Option Version
  | [], _ => none
  | v :: vs, vn => if v.wire ∈ vn then some v else findPreferred vs vn

/-- `Config::preferred` (version.rs:222-224). -/
def Config.preferred (c : Config) (vn : List Nat) : Option Version := findPreferred c.all vn

/-- `Config::preferred_compatible` (version.rs:227-229). -/
def Config.preferredCompatible (c : Config) (vn : List Nat) : Option Version :=
  findPreferred c.compatible vn

/-- `TransportParameter::Versions` (tparams.rs:284-303). -/
structure VInfo where
  current : Nat
  other : List Nat
  deriving Repr, DecidableEq

/-- The transport parameters that matter here. -/
structure Params where
  odcid : Option Bytes := none
  iscid : Option Bytes := none
  rscid : Option Bytes := none
  versions : Option VInfo := none
  deriving Repr, DecidableEq

/-- The reserved version in `set_versions` (tparams.rs:578); `r` is random. -/
def grease (r : Nat) : Nat := r &&& 0xf0f0f0f0 ||| 0x0a0a0a0a

/-- `TransportParameters::set_versions` (tparams.rs:576-591). -/
def versionInfo (client : Bool) (c : Config) (r : Nat) : VInfo :=
  { current := c.initial.wire
    other := grease r ::
      (c.all.filter fun v => !(client && !compatible c.initial v)).map Version.wire }

/-- `struct TransportParametersHandler` (tparams.rs:719-727). -/
structure Handler where
  client : Bool
  cfg : Config
  selected : Bool
  loc : Params
  remote : Option Params
  deriving Repr, DecidableEq

/-- `TransportParametersHandler::new` (tparams.rs:731-742). -/
def Handler.new (client : Bool) (cfg : Config) (r : Nat) : Handler :=
  { client, cfg, selected := false, loc := { versions := some (versionInfo client cfg r) }, remote := none }

/-- Errors: `Error::TransportParameter`, `VersionNegotiation`, `ProtocolViolation`, a TLS
alert, and the panics of the code. -/
inductive HErr where
  | transportParameter | versionNegotiation | protocolViolation | alert | panic
  deriving Repr, DecidableEq

/-- `TransportParametersHandler::compatible_upgrade` (tparams.rs:769-822).  The local part
is `TransportParameters::compatible_upgrade` (tparams.rs:593-602). -/
def Handler.compatibleUpgrade (h : Handler) (r : Params) : Except HErr Handler :=
  if h.selected then .ok h
  else
    match r.versions with
    | none => .ok h
    | some vi =>
      if h.client then
        match Version.ofWire vi.current with
        | none => .error .versionNegotiation
        | some chosen =>
          if h.cfg.compatible.any (· == chosen) then .ok { h with selected := true }
          else .error .transportParameter
      else if vi.current ≠ h.cfg.initial.wire then .error .transportParameter
      else
        match h.cfg.preferredCompatible vi.other with
        | none => .error .transportParameter
        | some p =>
          if p ≠ h.cfg.initial then
            match h.cfg.setInitial p, h.loc.versions with
            | .ok cfg, some lv =>
              .ok { h with cfg, selected := true, loc := { h.loc with versions := some { lv with current := p.wire } } }
            | _, _ => .error .panic
          else .ok { h with selected := true }

/-- `TransportParametersHandler::handle` (tparams.rs:907-929): any failure is an alert. -/
def Handler.handle (h : Handler) (r : Params) : Except HErr Handler :=
  match h.compatibleUpgrade r with
  | .ok h => .ok { h with remote := some r }
  | .error .panic => .error .panic
  | .error _ => .error .alert

/-- `enum State` (connection/state.rs:18-52), with everything from `Closing` on as `closed`
and `Connected` and `Confirmed` as `connected`. -/
inductive St where
  | init | waitInitial | waitVersion | handshaking | connected
  | closed (e : HErr)
  deriving Repr, DecidableEq

/-- The fields of `struct Connection` (connection/mod.rs:268-337) that matter here.
`keys v` is the connection ID that the Initial keys for `v` are derived from, `cver` the
version in `Crypto`, `hs` whether there are Handshake keys, `pathCid` the connection ID
that packets are sent to. -/
structure Conn where
  client : Bool
  state : St
  cfg : Config
  version : Version
  cver : Version
  tps : Handler
  localCid : Bytes
  remoteCid : Option Bytes
  odcid : Option Bytes
  retry : Option (Bytes × Bytes)
  pathCid : Bytes
  keys : Version → Option Bytes
  hs : Bool

/-- `CryptoStates::init` (crypto.rs:1062-1115): keys for the given versions. -/
def initKeys (keys : Version → Option Bytes) (vs : List Version) (dcid : Bytes) : Version → Option Bytes :=
  fun v => if v ∈ vs then some dcid else keys v

/-- `CryptoStates::init_server` (crypto.rs:1123-1133). -/
def initServer (keys : Version → Option Bytes) (v : Version) (dcid : Bytes) : Version → Option Bytes :=
  if (keys v).isNone then initKeys keys [v] dcid else keys

/-- `Connection::new` (connection/mod.rs:416-485); `cid` is the generated connection ID. -/
def Conn.new (client : Bool) (cfg : Config) (cid : Bytes) (r : Nat) : Conn :=
  let h := Handler.new client cfg r
  { client, state := .init, cfg, version := cfg.initial, cver := cfg.initial,
    tps := { h with loc := { h.loc with iscid := some cid } },
    localCid := cid, remoteCid := none, odcid := none, retry := none, pathCid := [],
    keys := fun _ => none, hs := false }

/-- `Connection::new_client` (connection/mod.rs:362-396); `dcid` is the generated initial
destination connection ID. -/
def Conn.newClient (cfg : Config) (dcid cid : Bytes) (r : Nat) : Conn :=
  let c := Conn.new true cfg cid r
  { c with keys := initKeys c.keys cfg.compatible dcid, odcid := some dcid, pathCid := dcid }

/-- `Connection::new_server` (connection/mod.rs:401-414), as `Server` calls it
(server.rs:371-379), and `set_retry_cids` (connection/mod.rs:577-597) if there was a
Retry: `retried` has the original connection ID from the token, the source and the
destination of the Initial packet. -/
def Conn.newServer (cfg : Config) (cid : Bytes) (r : Nat) (retried : Option (Bytes × Bytes × Bytes)) : Conn :=
  let c := Conn.new false cfg cid r
  match retried with
  | none => c
  | some (odcid, src, dst) =>
    { c with tps := { c.tps with loc := { c.tps.loc with odcid := some odcid, rscid := some dst } },
             remoteCid := some src }

/-- What `Connection::set_state` does (connection/mod.rs:3782-3804): only forward. -/
def St.rank : St → Nat
  | .init => 0
  | .waitInitial => 1
  | .waitVersion => 2
  | .handshaking => 3
  | .connected => 4
  | .closed _ => 5

def Conn.setState (c : Conn) (s : St) : Conn :=
  if s.rank > c.state.rank then { c with state := s } else c

/-- `Connection::capture_error` (connection/mod.rs:984-1040): the connection ends. -/
def Conn.fail (c : Conn) (e : HErr) : Conn := c.setState (.closed e)

/-- The fresh values that a new attempt needs. -/
structure Fresh where
  dcid : Bytes
  cid : Bytes
  r : Nat
  deriving Repr, DecidableEq

/-- `Connection::version_negotiation` (connection/mod.rs:1506-1550). -/
def Conn.versionNegotiation (c : Conn) (supported : List Nat) (f : Fresh) : Conn :=
  match c.cfg.preferred supported with
  | some v =>
    if c.version = v then c.fail .panic
    else
      match Config.new v c.cfg.all with
      | .error _ => c.fail .panic
      | .ok cfg =>
        let n := Conn.newClient cfg f.dcid f.cid f.r
        match n.cfg.setInitial c.cfg.initial with
        | .error _ => c.fail .panic
        | .ok cfg => { n with cfg }
  | none => c.fail .versionNegotiation

/-- The part of `Connection::preprocess_packet` for Version Negotiation packets
(connection/mod.rs:1626-1645); `scid` is the source connection ID of the packet. -/
def Conn.inputVn (c : Conn) (scid : Bytes) (versions : List Nat) (f : Fresh) : Conn :=
  if c.client ∧ c.state = .waitInitial then
    if versions = [] ∨ c.version.wire ∈ versions ∨ 0 ∈ versions ∨ some scid ≠ c.odcid ∨ c.retry.isSome then c
    else c.versionNegotiation versions f
  else c

/-- `Connection::handle_retry` (connection/mod.rs:1351-1412) and where it is called
(connection/mod.rs:1646-1649); `tagFor` is what the integrity tag was computed for. -/
def Conn.inputRetry (c : Conn) (scid token tagFor : Bytes) : Conn :=
  if c.client ∧ c.state = .waitInitial then
    if c.retry.isSome then c
    else if token = [] then c
    else
      match c.odcid with
      | none => c.fail .protocolViolation
      | some odcid =>
        if tagFor ≠ odcid then c
        else if scid = odcid then c
        else { c with pathCid := scid, keys := initKeys c.keys c.cfg.compatible scid, retry := some (token, scid) }
  else c

/-- `Connection::client_start` (connection/mod.rs:3009-3043). -/
def Conn.start (c : Conn) : Conn :=
  if c.client ∧ c.state = .init then c.setState .waitInitial else c

/-- The part of `Connection::preprocess_packet` for the first Initial packet at a server
(connection/mod.rs:1592-1625).  `valid` is `is_valid_initial`. -/
def Conn.preprocessInitial (c : Conn) (v : Version) (dcid : Bytes) (valid : Bool) : Conn :=
  if ¬ c.client ∧ c.state = .init then
    if ¬ valid ∨ v ∉ c.cfg.all then c
    else
      let c := { c with keys := initServer c.keys v dcid, odcid := some dcid }
      let c := c.setState .waitInitial
      if c.tps.loc.rscid.isNone then
        { c with tps := { c.tps with loc := { c.tps.loc with odcid := some dcid } } }
      else c
  else c

/-- The version to switch to, and the keys (connection/mod.rs:3264-3275). -/
def Conn.target (c : Conn) (pv : Version) : Except HErr (Version × (Version → Option Bytes)) :=
  if c.client then .ok (pv, c.keys)
  else
    match c.odcid with
    | none => .error .protocolViolation
    | some d => .ok (c.tps.cfg.initial, initServer c.keys c.tps.cfg.initial d)

/-- `Connection::compatible_upgrade` (connection/mod.rs:3259-3284) with
`Crypto::confirm_version` (crypto.rs:259-263, 1135-1151). -/
def Conn.compatibleUpgrade (c : Conn) (pv : Version) : Except HErr Conn :=
  if c.state = .waitInitial ∨ c.state = .waitVersion then
    match c.target pv with
    | .error e => .error e
    | .ok (v, keys) =>
      if c.cver ≠ v ∧ (keys c.cver).isSome ∧ (keys v).isNone then .error .versionNegotiation
      else .ok { c with version := v, cver := v, keys }
  else .ok c

/-- `Connection::validate_cids` (connection/mod.rs:3143-3197). -/
def Conn.validateCids (c : Conn) : Except HErr Unit :=
  match c.tps.remote with
  | none => .error .transportParameter
  | some r =>
    if c.remoteCid ≠ r.iscid then .error .protocolViolation
    else if c.client then
      if c.odcid ≠ r.odcid then .error .protocolViolation
      else if c.retry.map (·.2) ≠ r.rscid then .error .protocolViolation
      else .ok ()
    else .ok ()

/-- `Connection::validate_versions` (connection/mod.rs:3200-3252). -/
def Conn.validateVersions (c : Conn) : Except HErr Unit :=
  match c.tps.remote with
  | none => .error .transportParameter
  | some r =>
    match r.versions with
    | some vi =>
      if ¬ c.client then .ok ()
      else if c.version.wire ≠ vi.current then .error .versionNegotiation
      else if compatible c.cfg.initial c.version then .ok ()
      else
        match c.cfg.preferred (vi.other ++ [vi.current]) with
        | none => .error .versionNegotiation
        | some p => if compatible p c.version then .ok () else .error .versionNegotiation
    | none =>
      if c.version ≠ .v1 ∧ ¬ isDraft c.version then .error .versionNegotiation else .ok ()

/-- What `Connection::process_tps` starts with (connection/mod.rs:3088-3090), and
`Connection::set_connected` (connection/mod.rs:3715-3780). -/
def Conn.setConnected (c : Conn) : Except HErr Conn :=
  match c.validateCids with
  | .error e => .error e
  | .ok _ =>
    match c.validateVersions with
    | .error e => .error e
    | .ok _ => .ok (c.setState .connected)

/-- What TLS makes of the data in a CRYPTO frame: transport parameters of the peer, whether
there are Handshake secrets now, and whether the handshake is complete. -/
structure Tls where
  params : Option Params
  secret : Bool
  complete : Bool
  deriving Repr, DecidableEq

/-- TLS hands the transport parameters to the handler during `Crypto::handshake`
(crypto.rs:199-233). -/
def Conn.handleParams (c : Conn) (ps : Option Params) : Except HErr Conn :=
  match ps with
  | none => .ok c
  | some r =>
    match c.tps.handle r with
    | .error e => .error e
    | .ok h => .ok { c with tps := h }

/-- `HandshakeState::Complete` in `Connection::handshake` (connection/mod.rs:3310-3314). -/
def Conn.complete (c : Conn) (b : Bool) : Except HErr Conn :=
  if b ∧ c.state ≠ .connected then c.setConnected else .ok c

/-- The update in `Connection::handshake` (connection/mod.rs:3322-3334). -/
def Conn.secrets (c : Conn) (pv : Version) (b : Bool) : Except HErr Conn :=
  if b ∧ (c.client ∨ c.tps.remote.isSome) then
    match c.compatibleUpgrade pv with
    | .error e => .error e
    | .ok c => .ok { c with hs := true }
  else .ok c

/-- `Connection::handshake` (connection/mod.rs:3286-3338).  Of TLS it is assumed that it does
not complete on data from Initial packets, and that a server has no Handshake secrets before
it has read the transport parameters, which are in the ClientHello. -/
def Conn.handshake (c : Conn) (initial : Bool) (pv : Version) (t : Tls) : Except HErr Conn :=
  match c.handleParams t.params with
  | .error e => .error e
  | .ok c =>
    match c.complete (t.complete && !initial) with
    | .error e => .error e
    | .ok c => c.secrets pv t.secret

/-- A client that gets a CRYPTO frame in an Initial packet of another version switches to
that version (connection/mod.rs:3404-3412). -/
def Conn.follow (c : Conn) (initial : Bool) (pv : Version) : Except HErr Conn :=
  if c.client ∧ initial ∧ pv ≠ c.version then c.compatibleUpgrade pv else .ok c

/-- A CRYPTO frame (connection/mod.rs:3395-3431): `t` is `none` if there is nothing new for
TLS.  `initial` is whether it is in an Initial packet. -/
def Conn.inputCrypto (c : Conn) (initial : Bool) (pv : Version) (t : Option Tls) : Except HErr Conn :=
  match c.follow initial pv with
  | .error e => .error e
  | .ok c =>
    match t with
    | none => .ok c
    | some t => c.handshake initial pv t

/-- The frames of a packet (connection/mod.rs:1970-1998), of which only CRYPTO frames
matter. -/
def Conn.frames (c : Conn) (initial : Bool) (pv : Version) : List (Option Tls) → Except HErr Conn
  | [] => .ok c
  | t :: ts =>
    match c.inputCrypto initial pv t with
    | .error e => .error e
    | .ok c => Conn.frames c initial pv ts

/-- `Connection::start_handshake` (connection/mod.rs:2104-2122). -/
def Conn.startHandshake (c : Conn) (scid : Bytes) : Conn :=
  { c with remoteCid := some scid, pathCid := scid }

/-- What `Connection::postprocess_packet` does about the handshake
(connection/mod.rs:1757-1768). -/
def Conn.postprocess (c : Conn) (scid : Bytes) : Conn :=
  let c := if c.state = .waitInitial then c.startHandshake scid else c
  if c.state = .waitInitial ∨ c.state = .waitVersion then
    c.setState (if c.hs then .handshaking else .waitVersion)
  else c

/-- What happens to a connection. -/
inductive Ev where
  /-- The client sends its first packet. -/
  | start
  | vn (scid : Bytes) (versions : List Nat) (f : Fresh)
  | retry (scid token tagFor : Bytes)
  /-- An Initial packet of version `v`, protected with keys derived from `key`. -/
  | initial (v : Version) (key scid dcid : Bytes) (valid : Bool) (frames : List (Option Tls))
  /-- A Handshake packet that was decrypted. -/
  | handshake (v : Version) (scid : Bytes) (frames : List (Option Tls))
  deriving Repr, DecidableEq

/-- The processing of a packet that was decrypted (connection/mod.rs:1878-1890). -/
def Conn.packet (c : Conn) (initial : Bool) (v : Version) (scid : Bytes) (frames : List (Option Tls)) : Conn :=
  match c.frames initial v frames with
  | .ok c => c.postprocess scid
  | .error e => c.fail e

/-- `Connection::input_path` (connection/mod.rs:1818-1937): packets that come when the
connection is closed or has not started are dropped, and so are those for which there are
no keys. -/
def Conn.step (c : Conn) : Ev → Conn
  | .start => c.start
  | .vn scid versions f => c.inputVn scid versions f
  | .retry scid token tagFor => c.inputRetry scid token tagFor
  | .initial v key scid dcid valid frames =>
    let c := c.preprocessInitial v dcid valid
    match c.state with
    | .init | .closed _ => c
    | _ => if c.keys v = some key then c.packet true v scid frames else c
  | .handshake v scid frames =>
    match c.state with
    | .init | .closed _ => c
    | _ => if c.hs then c.packet false v scid frames else c

def Conn.run (c : Conn) (es : List Ev) : Conn := es.foldl Conn.step c

end Neqo.Hs
