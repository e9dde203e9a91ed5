import Verif.Hs.Model

/-!
# What the handshake has to agree on (RFC 9000 §7.3, RFC 9368)
-/
namespace Neqo.Hs.Spec
open Neqo.Codec (Bytes)
open Neqo.Pkt (Version)
open Neqo.Hs

/-- Versions 1 and 2 are compatible, and every version is compatible with itself. -/
def Compatible (a b : Version) : Prop := a = b ∨ (a ≠ .draft29 ∧ b ≠ .draft29)

/-- `v` is the first of `prefs` that is in `offer`. -/
def Best (prefs : List Version) (offer : List Nat) (v : Version) : Prop :=
  ∃ before after, prefs = before ++ v :: after ∧ v.wire ∈ offer ∧ ∀ u ∈ before, u.wire ∉ offer

/-- The versions on the wire. -/
def wires (vs : List Version) : List Nat := vs.map Version.wire

/-- `v` is what a client that starts with `initial` and a server that knows `initial` agree
on: the server's favourite among the versions that both have enabled and that are compatible
with `initial`. -/
def Agreed (initial : Version) (client server : List Version) (v : Version) : Prop :=
  Compatible initial v ∧ v ∈ client ∧ v ∈ server ∧
    ∃ before after, server = before ++ v :: after ∧
      ∀ u ∈ before, ¬ (Compatible initial u ∧ u ∈ client)

/-- What TLS reports when an event is processed. -/
def tlsOf : Ev → List Tls
  | .initial _ _ _ _ _ fs => fs.filterMap id
  | .handshake _ _ fs => fs.filterMap id
  | _ => []

/-- TLS hands over the transport parameters `p`. -/
def Delivered (es : List Ev) (p : Params) : Prop := ∃ e ∈ es, ∃ t ∈ tlsOf e, t.params = some p

/-- `d` is the destination of the first packets of an attempt of the client: either the
first attempt, or one that was started on a Version Negotiation packet. -/
def AttemptTo (first : Bytes) (es : List Ev) (d : Bytes) : Prop :=
  d = first ∨ ∃ scid vs f, Ev.vn scid vs f ∈ es ∧ d = f.dcid

/-- What a client checks in the parameters `p` of the server: the connection ID of the
server is the one that packets are sent to, the connection ID that the client started with
is the one the server knows, and a Retry was used if and only if the server says so. -/
structure CidsOk (c : Conn) (p : Params) : Prop where
  iscid : p.iscid = some c.pathCid
  odcid : p.odcid = c.odcid
  rscid : p.rscid = c.retry.map (·.2)

/-- What a client checks about the version: it is what the server says, and compatible
either with what the client tried first or with what it would have chosen from the list of
the server. -/
def VersionOk (cfg : Config) (v : Version) (p : Params) : Prop :=
  match p.versions with
  | some vi => vi.current = v.wire ∧
      (Compatible cfg.initial v ∨ ∃ q, Best cfg.all (vi.other ++ [vi.current]) q ∧ Compatible q v)
  | none => v = .v1 ∨ v = .draft29

/-- Both sides agree about the use of a Retry packet.  `ret` is what the server knows: the
original connection ID from the token, and the source and the destination of the packet
with the token. -/
def RetryAgreed (ret : Option (Bytes × Bytes × Bytes)) (c s : Conn) : Prop :=
  match ret with
  | none => c.retry = none ∧ s.odcid = c.odcid
  | some (o, _, dst) => c.odcid = some o ∧ ∃ tok, c.retry = some (tok, dst)

end Neqo.Hs.Spec
