import Verif.H3.RecvMessageProps

/-! # Checks of header sections (neqo-http3/src/headers_checks.rs) -/
namespace Neqo.H3
open Neqo.Codec (Bytes)

/-- `struct Header` (neqo-common/src/header.rs:16-27).  A name is UTF-8, which is not
needed here. -/
structure Hd where
  name : Bytes
  value : Bytes
  deriving Repr, DecidableEq

/-- `enum MessageType` (neqo-common/src/lib.rs:117-121). -/
inductive MType where
  | request | response
  deriving Repr, DecidableEq

/-- `:status` -/
def nStatus : Bytes := [58, 115, 116, 97, 116, 117, 115]
/-- `:method` -/
def nMethod : Bytes := [58, 109, 101, 116, 104, 111, 100]
/-- `:scheme` -/
def nScheme : Bytes := [58, 115, 99, 104, 101, 109, 101]
/-- `:authority` -/
def nAuthority : Bytes := [58, 97, 117, 116, 104, 111, 114, 105, 116, 121]
/-- `:path` -/
def nPath : Bytes := [58, 112, 97, 116, 104]
/-- `:protocol` -/
def nProtocol : Bytes := [58, 112, 114, 111, 116, 111, 99, 111, 108]
/-- `connection` -/
def nConnection : Bytes := [99, 111, 110, 110, 101, 99, 116, 105, 111, 110]
/-- `keep-alive` -/
def nKeepAlive : Bytes := [107, 101, 101, 112, 45, 97, 108, 105, 118, 101]
/-- `proxy-connection` -/
def nProxyConnection : Bytes := [112, 114, 111, 120, 121, 45, 99, 111, 110, 110, 101, 99, 116, 105, 111, 110]
/-- `transfer-encoding` -/
def nTransferEncoding : Bytes := [116, 114, 97, 110, 115, 102, 101, 114, 45, 101, 110, 99, 111, 100, 105, 110, 103]
/-- `upgrade` -/
def nUpgrade : Bytes := [117, 112, 103, 114, 97, 100, 101]
/-- `te` -/
def nTe : Bytes := [116, 101]
/-- `host` -/
def nHost : Bytes := [104, 111, 115, 116]
/-- `trailers` -/
def vTrailers : Bytes := [116, 114, 97, 105, 108, 101, 114, 115]
/-- `CONNECT` -/
def vConnect : Bytes := [67, 79, 78, 78, 69, 67, 84]
/-- `webtransport` -/
def vWebtransport : Bytes := [119, 101, 98, 116, 114, 97, 110, 115, 112, 111, 114, 116]
/-- `https` -/
def vHttps : Bytes := [104, 116, 116, 112, 115]

/-- `enum PseudoHeaderState` (headers_checks.rs:12-21). -/
inductive Ps where
  | status | method | scheme | authority | path | protocol | regular
  deriving Repr, DecidableEq

/-- `TryFrom<(MessageType, &str)>` (headers_checks.rs:29-43). -/
def psOf (mt : MType) (name : Bytes) : Except Err Ps :=
  match mt with
  | .response => if name = nStatus then .ok .status else .error .invalidHeader
  | .request =>
    if name = nMethod then .ok .method
    else if name = nScheme then .ok .scheme
    else if name = nAuthority then .ok .authority
    else if name = nPath then .ok .path
    else if name = nProtocol then .ok .protocol
    else .error .invalidHeader

def startsWithColon (name : Bytes) : Bool := name.head? == some 0x3a

/-- `track_pseudo` (headers_checks.rs:68-89).  The set is a list. -/
def trackPseudo (name : Bytes) (seen : List Ps) (mt : MType) : Except Err (List Ps × Bool) := do
  let new ← if startsWithColon name then
      (if .regular ∈ seen then .error .invalidHeader else psOf mt name)
    else pure .regular
  if new ∉ seen ∨ new = .regular then .ok (new :: seen, new ≠ .regular) else .error .invalidHeader

/-- What `headers_valid` keeps track of (headers_checks.rs:98-101). -/
structure Hv where
  seen : List Ps := []
  method : Option Bytes := none
  protocol : Option Bytes := none
  scheme : Option Bytes := none
  deriving Repr, DecidableEq

/-- Bytes not allowed in names (headers_checks.rs:118). -/
def badNameByte (b : UInt8) : Bool := b = 0 || b = 0x0a || b = 0x0d || b = 0x3a || (0x41 ≤ b && b ≤ 0x5a)

/-- Bytes not allowed in values (headers_checks.rs:125). -/
def badValueByte (b : UInt8) : Bool := b = 0 || b = 0x0a || b = 0x0d

/-- The loop of `headers_valid` (headers_checks.rs:102-138). -/
def Hv.field (mt : MType) (s : Hv) (h : Hd) : Except Err Hv := do
  let (seen, pseudo) ← trackPseudo h.name s.seen mt
  let s1 := { s with seen := seen }
  let s2 :=
    if pseudo then
      if h.name = nMethod then { s1 with method := some h.value }
      else if h.name = nProtocol then { s1 with protocol := some h.value }
      else if h.name = nScheme then { s1 with scheme := some h.value }
      else s1
    else s1
  let bytes := if pseudo then h.name.drop 1 else h.name
  if bytes.any badNameByte then .error .invalidHeader
  else if h.value.any badValueByte then .error .invalidHeader
  else if h.name = nConnection || h.name = nKeepAlive || h.name = nProxyConnection ||
      h.name = nTransferEncoding || h.name = nUpgrade then .error .invalidHeader
  else if h.name = nTe && h.value ≠ vTrailers then .error .invalidHeader
  else .ok s2

/-- The end of `headers_valid` (headers_checks.rs:139-176). -/
def Hv.finish (mt : MType) (s : Hv) : Except Err Unit := do
  let mask : List Ps ← match mt with
    | .response => pure [.status]
    | .request =>
      if s.method = some vConnect then
        match s.protocol with
        | some p =>
          if p = vWebtransport && s.scheme ≠ some vHttps then .error .invalidHeader
          else pure [.method, .authority, .scheme, .path]
        | none => pure [.method, .authority]
      else pure [.method, .scheme, .path]
  if mt = .request && .protocol ∈ s.seen && s.method ≠ some vConnect then .error .invalidHeader
  else if mask.all (fun p => decide (p ∈ s.seen)) then .ok ()
  else .error .invalidHeader

/-- `headers_valid` (headers_checks.rs:97-175). -/
def headersValid (mt : MType) (hs : List Hd) : Except Err Unit := do
  let s ← hs.foldlM (Hv.field mt) {}
  s.finish mt

/-- `str::parse::<u16>` (Rust's standard library): an optional plus sign and at least
one digit, up to 65535. -/
def parseU16 (bs : Bytes) : Option Nat :=
  let ds := if bs.head? = some 0x2b then bs.drop 1 else bs
  if ds = [] then none
  else if ds.all (fun b => 0x30 ≤ b && b ≤ 0x39) then
    let v := ds.foldl (fun a b => 10 * a + (b.toNat - 0x30)) 0
    if v ≤ 65535 then some v else none
  else none

/-- `is_interim` (headers_checks.rs:51-66).  Bytes that are not UTF-8 are not digits
either. -/
def isInterim (hs : List Hd) : Except Err Bool :=
  match (hs.take 1).find? (fun h => h.name = nStatus) with
  | none => .error .invalidHeader
  | some h =>
    match parseU16 h.value with
    | none => .error .invalidHeader
    | some c => if c = 101 then .error .invalidHeader else .ok (100 ≤ c && c < 200)

/-- `trailers_valid` (headers_checks.rs:183-190). -/
def trailersValid (hs : List Hd) : Except Err Unit :=
  if hs.any (fun h => startsWithColon h.name) then .error .invalidHeader else .ok ()

/-- `Header::is_allowed_for_response` (neqo-common/src/header.rs:42-53). -/
def Hd.allowedForResponse (h : Hd) : Bool :=
  !(h.name = nConnection || h.name = nHost || h.name = nKeepAlive || h.name = nProxyConnection ||
    h.name = nTe || h.name = nTransferEncoding || h.name = nUpgrade)

/-- The checks in `RecvMessage::add_headers` (recv_message.rs:172-187): what kind of
section it is and what is passed on.  (A section that is both interim and the last
thing on the stream is refused in `Rm.addHeaders`.) -/
def checkHeaders (mt : MType) (hs : List Hd) : Except Err (HKind × List Hd) := do
  let interim ← match mt with
    | .request => pure false
    | .response => isInterim hs
  headersValid mt hs
  let hs' := if mt = .response then hs.filter Hd.allowedForResponse else hs
  let connect := mt = .request && hs'.any (fun h => h.name = nMethod && h.value = vConnect) &&
    hs'.any (fun h => h.name = nProtocol)
  .ok (if connect then .connect else if interim then .interim else .final, hs')

end Neqo.H3

namespace Neqo.H3.Spec
open Neqo.Codec (Bytes)
open Neqo.H3

/-- A pseudo-header field: its name begins with a colon (RFC 9114 §4.3). -/
def Pseudo (h : Hd) : Prop := h.name.head? = some 0x3a

/-- The pseudo-header fields that are defined for a message. -/
def defined : MType → List Bytes
  | .response => [nStatus]
  | .request => [nMethod, nScheme, nAuthority, nPath, nProtocol]

/-- The value of a field. -/
def value? (hs : List Hd) (name : Bytes) : Option Bytes :=
  (hs.find? (fun h => h.name = name)).map Hd.value

/-- A name without upper case letters, NUL, CR, LF and colons (other than the one
that begins the name of a pseudo-header field). -/
def NameOk (name : Bytes) : Prop :=
  ∀ b ∈ (if name.head? = some 0x3a then name.drop 1 else name),
    b ≠ 0 ∧ b ≠ 0x0a ∧ b ≠ 0x0d ∧ b ≠ 0x3a ∧ ¬ (0x41 ≤ b ∧ b ≤ 0x5a)

/-- A value without NUL, CR and LF. -/
def ValueOk (v : Bytes) : Prop := ∀ b ∈ v, b ≠ 0 ∧ b ≠ 0x0a ∧ b ≠ 0x0d

/-- Fields that belong to an HTTP/1.1 connection (RFC 9114 §4.2). -/
def connectionFields : List Bytes :=
  [nConnection, nKeepAlive, nProxyConnection, nTransferEncoding, nUpgrade]

/-- The pseudo-header fields a message must have (RFC 9114 §4.3.1, §4.3.2, §4.4;
RFC 9220). -/
def Complete (hs : List Hd) : MType → Prop
  | .response => (value? hs nStatus).isSome
  | .request =>
    (value? hs nMethod).isSome ∧
    if value? hs nMethod = some vConnect then
      (value? hs nAuthority).isSome ∧
      ((value? hs nProtocol).isSome → (value? hs nScheme).isSome ∧ (value? hs nPath).isSome) ∧
      (value? hs nProtocol = some vWebtransport → value? hs nScheme = some vHttps)
    else (value? hs nScheme).isSome ∧ (value? hs nPath).isSome ∧ value? hs nProtocol = none

/-- A header section that keeps the rules. -/
structure WellFormed (mt : MType) (hs : List Hd) : Prop where
  /-- Pseudo-header fields come first. -/
  order : hs.Pairwise fun a b => Pseudo b → Pseudo a
  /-- None of them comes twice. -/
  once : hs.Pairwise fun a b => Pseudo b → a.name ≠ b.name
  /-- All of them are defined for the message. -/
  known : ∀ h ∈ hs, Pseudo h → h.name ∈ defined mt
  names : ∀ h ∈ hs, NameOk h.name
  values : ∀ h ∈ hs, ValueOk h.value
  /-- No field of a connection is in it, except for `te: trailers`. -/
  conn : ∀ h ∈ hs, h.name ∉ connectionFields ∧ (h.name = nTe → h.value = vTrailers)
  complete : Complete hs mt

end Neqo.H3.Spec
