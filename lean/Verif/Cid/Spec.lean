import Verif.Cid.Model

/-!
Histories of the connection IDs an endpoint gives out.
-/

namespace Neqo.Cid

open Neqo.Path (Entry)

/-- What can happen. -/
inductive Ev where
  /-- A server makes a connection ID for its preferred address. -/
  | preferred (answer : Option (List Nat))
  /-- A server accepts the client's first choice of connection ID for the handshake. -/
  | addOdcid (cid : List Nat)
  | removeOdcid
  /-- The peer's active_connection_id_limit is known. -/
  | setLimit (n : Nat)
  /-- A RETIRE_CONNECTION_ID frame arrives. -/
  | retire (seq : Nat)
  | write (room : Nat) (gen : List (Option (List Nat × Nat)))
  | lost (e : Entry)
  | acked (e : Entry)
  deriving DecidableEq, Repr

/-- The state, and what was seen, newest first. -/
structure Hist where
  m : Mgr
  /-- Connection IDs given out, the one of the handshake first.  Those not sent in frames have no
  token here. -/
  issued : List Entry
  /-- Sequence numbers that the peer learns of without a NEW_CONNECTION_ID frame. -/
  told : List Nat
  /-- NEW_CONNECTION_ID frames written. -/
  sent : List Entry
  /-- Tokens of packets neither lost nor acknowledged. -/
  out : List Entry
  acked : List Nat
  /-- Sequence numbers that the peer retired, zero-length connection IDs aside. -/
  retired : List Nat
  deriving DecidableEq, Repr

namespace Hist

def init (initial : List Nat) (emptyCids : Bool) : Hist :=
  { m := .new initial emptyCids, issued := [⟨0, initial, 0⟩], told := [0], sent := [], out := [], acked := [],
    retired := [] }

/-- Whether the connection ID of this sequence number has no bytes. -/
def zeroLength (h : Hist) (seq : Nat) : Prop := ∃ e ∈ h.issued, e.seq = seq ∧ e.cid = []

instance (h : Hist) (seq : Nat) : Decidable (h.zeroLength seq) := by
  unfold zeroLength; infer_instance

def step (h : Hist) : Ev → Except Err Hist
  | .preferred a => do
    let m ← h.m.preferred a
    .ok { h with m, issued := (a.map (fun cid => (⟨h.m.next, cid, 0⟩ : Entry))).toList ++ h.issued,
                    told := h.m.next :: h.told }
  | .addOdcid cid => .ok { h with m := h.m.addOdcid cid }
  | .removeOdcid => .ok { h with m := h.m.removeOdcid }
  | .setLimit n => do
    let m ← h.m.setLimit n
    .ok { h with m }
  | .retire q => do
    let m ← h.m.retire q
    .ok { h with m, retired := if h.zeroLength q then h.retired else q :: h.retired }
  | .write room gen => do
    let w ← h.m.writeFrames room gen
    .ok { h with
      m := w.mgr
      issued := (w.tokens.filter (fun e => h.m.next ≤ e.seq)).reverse ++ h.issued
      sent := w.frames.reverse ++ h.sent
      out := w.tokens.reverse ++ h.out }
  | .lost e => .ok { h with m := h.m.onLost e, out := h.out.erase e }
  | .acked e => .ok { h with m := h.m.onAcked e, out := h.out.erase e, acked := e.seq :: h.acked }

/-- What the rest of the connection guarantees: a preferred address is set up first of all; the
limit is set once, and was checked; the handshake's connection ID is dropped for good; tokens are
lost or acknowledged only if they are out.  Connection IDs have at most 20 bytes, and numbers do not
run out. -/
def Legal (h : Hist) : Ev → Prop
  | .preferred a => h.m.next = 1 ∧ a ≠ some []
  | .setLimit n => 2 ≤ n ∧ h.m.limit = 2
  | .write _ gen => h.m.next + gen.length ≤ 2 ^ 62 ∧
      ∀ a ∈ gen, ∀ x, a = some x → 1 ≤ x.1.length ∧ x.1.length ≤ 20
  | .lost e | .acked e => e ∈ h.out
  | _ => True

/-- The histories that can be reached. -/
inductive Reached (initial : List Nat) (emptyCids : Bool) : Hist → Prop where
  | init : Reached initial emptyCids (init initial emptyCids)
  | step {h h' : Hist} {e : Ev} : Reached initial emptyCids h → h.Legal e → h.step e = .ok h' →
      Reached initial emptyCids h'

end Hist

/-- The connection IDs that the endpoint accepts, the client's first choice aside. -/
def Mgr.active (m : Mgr) : List LEntry := m.ids.filter (fun e => e.seq ≠ seqOdcid)

end Neqo.Cid
