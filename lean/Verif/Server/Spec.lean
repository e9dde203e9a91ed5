import Verif.Server.Model
import Verif.Packet.Special
import Verif.Token.Spec

/-!
# What a server does with datagrams
-/
namespace Neqo.Srv.Spec
open Neqo.Codec (Bytes)
open Neqo.Pkt (Version Ty Public)
open Neqo.Srv

variable {C : Type}

/-- The first packet of a datagram. -/
def First (cfg : Config C) (d : Dgram) (p : Public) : Prop :=
  ∃ rest, Pkt.decodePublic cfg.cid cfg.exp true d.data = .ok (p, rest)

/-- No connection has this connection ID. -/
def Unknown (cfg : Config C) (s : Server C) (dcid : Bytes) : Prop := ∀ c ∈ s.conns, cfg.conn.valid c dcid = false

/-- The datagram could start a connection: its first packet is an Initial packet of an enabled
version for a connection ID that is not known, and it is not too small (RFC 9000 §14.1). -/
structure Opening (cfg : Config C) (s : Server C) (d : Dgram) (p : Public) (scid : Bytes) (v : Version) : Prop where
  first : First cfg d p
  unknown : Unknown cfg s p.dcid
  size : 1200 ≤ d.data.length
  ty : p.ty = .initial
  version : p.version = some v.wire
  enabled : v ∈ cfg.versions
  scid : p.scid = some scid

/-- Everything that can happen with a datagram: the connections after it, and what is sent. -/
inductive Reaction (cfg : Config C) (s : Server C) (d : Dgram) (now : Nat) : List C → Out → Prop where
  /-- Nothing. -/
  | dropped : Reaction cfg s d now s.conns .none
  /-- It is passed to one connection, which has the connection ID. -/
  | delivered (p : Public) (i : Nat) (c : C) (h : First cfg d p) (hi : s.conns[i]? = some c)
      (hv : cfg.conn.valid c p.dcid = true) : Reaction cfg s d now (s.conns.set i (cfg.conn.input c d now)) .none
  /-- A Version Negotiation packet goes back: it has the connection IDs exchanged, and lists the
  enabled versions and one that is reserved. -/
  | negotiated (p : Public) (scid : Bytes) (first : UInt8) (g : Nat) (h : First cfg d p) (hu : Unknown cfg s p.dcid)
      (hsize : 1200 ≤ d.data.length) (hs : p.scid = some scid)
      (hty : p.ty = .otherVersion ∨ p.ty = .initial ∧ ∀ v ∈ cfg.versions, p.version ≠ some v.wire)
      (hf : 128 ≤ first.toNat) (hg : Pkt.Spec.Reserved g) (hgv : p.version ≠ some g) :
      Reaction cfg s d now s.conns
        (.dgrams [⟨d.dst, d.src, Pkt.Spec.vnWire first scid p.dcid (cfg.versions.map Version.wire ++ [g])⟩])
  /-- A Retry packet goes back, with a token for the sender. -/
  | retried (p : Public) (scid ncid token : Bytes) (v : Version) (first : UInt8) (rand : Nat) (h : Opening cfg s d p scid v)
      (hd : 8 ≤ p.dcid.length) (hv : cfg.av.validate cfg.cipher p.token d.src now = .validate)
      (ht : cfg.av.generate cfg.cipher (some p.dcid) d.src now rand = some token) (hf : Pkt.Spec.RetryFirst first v) :
      Reaction cfg s d now s.conns
        (.dgrams [⟨d.dst, d.src, Pkt.Spec.retryHead first v scid ncid token ++
          cfg.tag v (Pkt.Spec.pseudo p.dcid first v scid ncid token)⟩])
  /-- There is a new connection, which gets the datagram and may answer. -/
  | accepted (p : Public) (scid : Bytes) (v : Version) (odcid : Option Bytes) (c c' : C) (o : Out) (h : Opening cfg s d p scid v)
      (hv : cfg.av.validate cfg.cipher p.token d.src now = (match odcid with | none => .pass | some x => .validRetry x))
      (hn : cfg.conn.new v scid p.dcid odcid now = some c)
      (ho : cfg.conn.output (cfg.conn.input c d now) now 1 = (c', o)) : Reaction cfg s d now (s.conns ++ [c']) o

/-- Datagrams are handled one after the other, and there is no answer to all but the last. -/
inductive Handled (cfg : Config C) : Server C → List (Dgram × Nat) → Server C → Option (List Dgram) → Prop where
  | nil (s : Server C) : Handled cfg s [] s none
  | last (s s' : Server C) (d : Dgram) (t : Nat) (o : List Dgram) (h : handle cfg s d t = .ok (s', .dgrams o)) :
      Handled cfg s [(d, t)] s' (some o)
  | cons (s s' s'' : Server C) (d : Dgram) (t : Nat) (o : Out) (rest : List (Dgram × Nat)) (r : Option (List Dgram))
      (h : handle cfg s d t = .ok (s', o)) (ho : ∀ x, o ≠ .dgrams x) (hr : Handled cfg s' rest s'' r) :
      Handled cfg s ((d, t) :: rest) s'' r

/-- A call of `process`. -/
structure Call where
  ds : List Dgram
  now : Nat
  max : Nat
  deriving Repr

def Call.arrivals (c : Call) : List (Dgram × Nat) := c.ds.map fun d => (d, c.now)

def run (cfg : Config C) : List Call → Server C → Except Err (Server C)
  | [], s => .ok s
  | c :: cs, s =>
    match process cfg s c.ds c.now c.max with
    | .error e => .error e
    | .ok (s, _) => run cfg cs s

end Neqo.Srv.Spec
