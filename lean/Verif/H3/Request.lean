import Verif.H3.HeadersProps

/-!
# The fields of a request: `Http3Connection::create_request_headers`
-/
namespace Neqo.H3
open Neqo.Codec

/-- `connect-udp` -/
def vConnectUdp : Bytes := [99, 111, 110, 110, 101, 99, 116, 45, 117, 100, 112]
/-- `capsule-protocol` -/
def nCapsule : Bytes := [99, 97, 112, 115, 117, 108, 101, 45, 112, 114, 111, 116, 111, 99, 111, 108]
/-- `priority` -/
def nPriority : Bytes := [112, 114, 105, 111, 114, 105, 116, 121]

/-- `ExtendedConnectType` (features/extended_connect/mod.rs) and `ConnectType`
(features/mod.rs). -/
inductive ConnectType where
  | classic
  | webTransport
  | connectUdp
  deriving Repr, DecidableEq

/-- `struct RequestDescription` (connection.rs:53-59), with the parts of the target
(request_target.rs:11-15), and without the priority. -/
structure RequestDesc where
  method : Bytes
  connect : Option ConnectType
  scheme : Bytes
  authority : Bytes
  path : Bytes
  headers : List Hd
  deriving Repr

/-- `Http3Connection::create_request_headers` (connection.rs:836-891).  `none` is the error
`InvalidInput`. -/
def RequestDesc.create (r : RequestDesc) : Option (List Hd) :=
  match r.connect with
  | none =>
    if r.method = vConnect then none
    else some ([⟨nMethod, r.method⟩, ⟨nScheme, r.scheme⟩, ⟨nAuthority, r.authority⟩, ⟨nPath, r.path⟩] ++ r.headers)
  | some .classic =>
    if r.method ≠ vConnect then none
    else some ([⟨nMethod, r.method⟩, ⟨nAuthority, r.authority⟩] ++ r.headers)
  | some .webTransport =>
    if r.method ≠ vConnect then none
    else some ([⟨nMethod, r.method⟩, ⟨nScheme, r.scheme⟩, ⟨nAuthority, r.authority⟩, ⟨nPath, r.path⟩,
      ⟨nProtocol, vWebtransport⟩] ++ r.headers)
  | some .connectUdp =>
    if r.method ≠ vConnect then none
    else some ([⟨nMethod, r.method⟩, ⟨nScheme, r.scheme⟩, ⟨nAuthority, r.authority⟩, ⟨nPath, r.path⟩,
      ⟨nProtocol, vConnectUdp⟩] ++ (⟨nCapsule, [0x3f, 0x31]⟩ :: r.headers))

/-- `Http3Client::fetch` (connection_client.rs:513-548): the fields it sends. -/
def fetchFields (method scheme authority path : Bytes) (headers : List Hd) : Option (List Hd) :=
  if method = vConnect then none
  else RequestDesc.create ⟨method, none, scheme, authority, path, headers⟩

/-- `Http3Client::connect` (connection_client.rs:559-590). -/
def connectFields (authority : Bytes) (headers : List Hd) : Option (List Hd) :=
  RequestDesc.create ⟨vConnect, some .classic, [], authority, [], headers⟩

/-- The request of an extended CONNECT (connection.rs:1246-1252). -/
def extendedFields (udp : Bool) (scheme authority path : Bytes) (headers : List Hd) : Option (List Hd) :=
  RequestDesc.create ⟨vConnect, some (if udp then .connectUdp else .webTransport), scheme, authority, path, headers⟩

end Neqo.H3

namespace Neqo.H3.Spec
open Neqo.Codec (Bytes)
open Neqo.H3

/-- A field that an application may add to a request. -/
structure FieldOk (h : Hd) : Prop where
  plain : ¬ Pseudo h
  name : NameOk h.name
  value : ValueOk h.value
  conn : h.name ∉ connectionFields ∧ (h.name = nTe → h.value = vTrailers)

end Neqo.H3.Spec
