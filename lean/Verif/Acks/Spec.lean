import Verif.Acks.Model

/-!
# Histories of one packet number space, receiving side
-/
namespace Neqo.Acks
open Neqo.Codec (maxVarint)

inductive Op where
  /-- A packet arrives; it is dropped if it is a duplicate (connection/mod.rs:1881). -/
  | packet (now pn : Nat) (eliciting : Bool)
  /-- PING, or an ACK frame we sent was lost. -/
  | immediate (time : Nat)
  /-- ACK_FREQUENCY arrives. -/
  | ackFreq (seqno tolerance delay : Nat) (ignoreOrder : Bool)
  | ecn (counts : Ecn)
  /-- A chance to write an ACK frame. -/
  | write (now rtt remaining : Nat)
  /-- The packet with the `k`-th ACK frame we sent is acknowledged. -/
  | acked (k : Nat)
  deriving Repr, DecidableEq

/-- What was observable from outside. -/
structure Rec where
  /-- Packet numbers of the packets that were processed, latest first. -/
  received : List Nat := []
  /-- The ACK frames sent, in order, each as the ranges it reported. -/
  sent : List (List PRange) := []
  /-- Which of them were acknowledged. -/
  acked : List Nat := []
  /-- Largest delay in force so far. -/
  maxDelay : Nat := defaultAckDelay
  /-- Latest time seen. -/
  clock : Nat := 0
  /-- Ack-eliciting packets processed since the last ACK frame was sent. -/
  since : Nat := 0
  deriving Repr, DecidableEq

structure Hist where
  s : Recvd
  r : Rec := {}
  deriving Repr, DecidableEq

inductive Out where
  | nothing
  | processed (largest : Bool)
  | duplicate
  | frame (f : AckFrame)
  deriving Repr, DecidableEq

def Hist.new (app : Bool) : Hist := { s := .new app }

/-- Record the outcome of a chance to write. -/
def Hist.written (h : Hist) (s' : Recvd) (now : Nat) : Option (AckFrame × List PRange) → Hist × Out
  | none => (⟨s', { h.r with clock := max h.r.clock now }⟩, .nothing)
  | some (f, rs) => (⟨s', { h.r with sent := h.r.sent ++ [rs], clock := max h.r.clock now, since := 0 }⟩, .frame f)

def Hist.step (h : Hist) : Op → Except Err (Hist × Out)
  | .packet now pn eliciting =>
    if h.s.isDuplicate pn then .ok (h, .duplicate)
    else do
      let (s', largest) ← h.s.setReceived now pn eliciting
      .ok (⟨s', { h.r with received := pn :: h.r.received, clock := max h.r.clock now, since := if eliciting then h.r.since + 1 else h.r.since }⟩, .processed largest)
  | .immediate t => .ok (⟨h.s.immediateAck t, { h.r with clock := max h.r.clock t }⟩, .nothing)
  | .ackFreq q t d i => .ok (⟨h.s.ackFreq q t d i, { h.r with maxDelay := max h.r.maxDelay d }⟩, .nothing)
  | .ecn c => .ok (⟨{ h.s with ecn := c }, h.r⟩, .nothing)
  | .write now rtt remaining => do
    let (s', o) ← h.s.writeFrame now rtt remaining
    .ok (h.written s' now o)
  | .acked k =>
    match h.r.sent[k]? with
    | none => .ok (h, .nothing)
    | some rs => do
      let s' ← h.s.acknowledged rs
      .ok (⟨s', { h.r with acked := k :: h.r.acked }⟩, .nothing)

def Hist.run (h : Hist) : List Op → Except Err Hist
  | [] => .ok h
  | op :: ops => do
    let (h', _) ← h.step op
    h'.run ops

def Reached (h : Hist) : Prop := ∃ app ops, (Hist.new app).run ops = .ok h

/-- The numbers an ACK frame covers, by the rules of RFC 9000, 19.3.1: the first range ends at the
largest number; each further range ends two plus the gap below where the previous one starts. -/
def coversFrom (smallest : Nat) : List (Nat × Nat) → Nat → Prop
  | [], _ => False
  | (gap, len) :: rs, i =>
    gap + 2 + len ≤ smallest ∧
      ((smallest - gap - 2 - len ≤ i ∧ i ≤ smallest - gap - 2) ∨ coversFrom (smallest - gap - 2 - len) rs i)

def AckFrame.Covers (f : AckFrame) (i : Nat) : Prop :=
  f.first ≤ f.largest ∧ ((f.largest - f.first ≤ i ∧ i ≤ f.largest) ∨ coversFrom (f.largest - f.first) f.ranges i)

/-- The ranges of an ACK frame by the same rules; `none` if one would go below zero. -/
def expandFrom (smallest : Nat) : List (Nat × Nat) → Option (List (Nat × Nat))
  | [] => some []
  | (gap, len) :: rs =>
    if gap + 2 + len ≤ smallest then
      (expandFrom (smallest - gap - 2 - len) rs).map ((smallest - gap - 2 - len, smallest - gap - 2) :: ·)
    else none

def expand (largest first : Nat) (ranges : List (Nat × Nat)) : Option (List (Nat × Nat)) :=
  if first ≤ largest then (expandFrom (largest - first) ranges).map ((largest - first, largest) :: ·) else none

/-- `i` was in an ACK frame that was acknowledged. -/
def Rec.Confirmed (r : Rec) (i : Nat) : Prop :=
  ∃ k ∈ r.acked, ∃ rs, r.sent[k]? = some rs ∧ ∃ x ∈ rs, x.smallest ≤ i ∧ i ≤ x.largest

/-- `pn` is the next number after everything received. -/
def InOrder (received : List Nat) (pn : Nat) : Prop :=
  (∀ j ∈ received, j < pn) ∧ (pn = 0 ∨ pn - 1 ∈ received)

end Neqo.Acks
