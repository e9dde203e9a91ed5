import Verif.SendStream.Model

/-!
# Histories of send streams

A stream together with a record of what was observable from outside: what the application wrote
and asked for, which frames went out, and which of them the peer acknowledged or were declared
lost.  Acknowledgements and losses refer to frames that were sent, and may come in any order, any
number of times and for the same frame both ways (a probe declares frames lost that are still in
flight).
-/
namespace Neqo.Send
open Neqo.Codec (Bytes maxVarint)
open Neqo.Flow (SFc)

/-- Operations on one stream. -/
inductive Op where
  /-- The application writes. -/
  | write (data : Bytes) (atomic : Bool)
  | close
  | commit
  | reset (err : Nat)
  /-- STOP_SENDING arrives (streams.rs:182-199). -/
  | stopSending (err : Nat)
  | setPriority (prio effPrio : Prio)
  | setWatermark (w : Nat)
  /-- MAX_STREAM_DATA arrives. -/
  | maxStreamData (limit : Nat)
  /-- A chance to write frames into a packet with `rem` bytes left, at one priority.
  `split` is where the send buffer wraps around. -/
  | frames (p : Prio) (rem split : Nat)
  /-- The `k`-th STREAM frame sent is acknowledged. -/
  | acked (k : Nat)
  /-- The `k`-th STREAM frame sent is declared lost. -/
  | lost (k : Nat)
  | resetAcked
  | resetLost
  | blockedLost (limit : Nat)
  /-- The connection's limit was raised (streams.rs:567-576): credit before and after. -/
  | connRaised (previous current : Nat)
  deriving Repr, DecidableEq

/-- Values that come from varints are below `2^62`. -/
def Op.Valid : Op → Prop
  | .reset e => e ≤ maxVarint
  | .stopSending e => e ≤ maxVarint
  | .maxStreamData l => l ≤ maxVarint
  | _ => True

/-- What one operation shows. -/
inductive Out where
  | nothing
  | sent (r : SendRes)
  | failed (e : Err)
  | wrote (w : Wrote)
  deriving Repr, DecidableEq

/-- The record. -/
structure Rec where
  /-- Largest limit for this stream received. -/
  limit : Nat
  /-- Bytes accepted from the application. -/
  written : Bytes := []
  /-- All frames sent, in order. -/
  frames : List Frame := []
  /-- Of those, the STREAM frames. -/
  toks : List Tok := []
  /-- Indices of STREAM frames that have not been declared lost since they were sent. -/
  live : List Nat := []
  /-- Indices of STREAM frames that were acknowledged. -/
  acks : List Nat := []
  /-- The application closed the stream before any reset. -/
  closed : Bool := false
  /-- The stream was reset (by the application or on STOP_SENDING) before it completed. -/
  resetCalled : Bool := false
  /-- Prefix the application committed to and the peer has not declined. -/
  committed : Nat := 0
  /-- A reset frame was sent; one was acknowledged. -/
  resetSeen : Bool := false
  resetAck : Bool := false
  deriving Repr, DecidableEq

structure Hist where
  s : Stream
  r : Rec
  deriving Repr, DecidableEq

def Hist.new (id maxStreamData : Nat) (conn : SFc) : Hist :=
  ⟨.new id maxStreamData conn, { limit := maxStreamData }⟩

def tokOf : Frame → Option Tok
  | .stream off data fin _ => some ⟨off, data.length, fin⟩
  | _ => none

def isReset : Frame → Bool
  | .reset _ _ => true
  | .resetAt _ _ _ => true
  | _ => false

/-- Record frames that went out. -/
def Rec.sent (r : Rec) (fs : List Frame) : Rec :=
  { r with
    frames := r.frames ++ fs
    toks := r.toks ++ fs.filterMap tokOf
    live := r.live ++ (List.range (fs.filterMap tokOf).length).map (r.toks.length + ·)
    resetSeen := r.resetSeen || fs.any isReset }

/-- The application has been told that the stream is complete. -/
def Stream.completed (s : Stream) : Bool := s.events.contains .complete

def Hist.step (h : Hist) (conn : SFc) : Op → Except Err (Hist × SFc × Out)
  | .write data atomic => do
    let (s', conn', res) ← h.s.sendInternal conn data atomic
    match res with
    | .wrote n => .ok (⟨s', { h.r with written := h.r.written ++ data.take n }⟩, conn', .sent res)
    | .err _ => .ok (⟨s', h.r⟩, conn', .sent res)
  | .close => .ok (⟨h.s.close, { h.r with closed := h.r.closed || !h.r.resetCalled }⟩, conn, .nothing)
  | .commit =>
    match h.s.commit with
    | (s', none) => .ok (⟨s', { h.r with committed := h.r.written.length }⟩, conn, .nothing)
    | (s', some e) => .ok (⟨s', h.r⟩, conn, .failed e)
  | .reset err =>
    .ok (⟨h.s.reset err, { h.r with resetCalled := h.r.resetCalled || !h.s.completed }⟩, conn, .nothing)
  | .stopSending err =>
    .ok (⟨h.s.dropCommitment.reset err,
      { h.r with resetCalled := h.r.resetCalled || !h.s.completed, committed := 0 }⟩, conn, .nothing)
  | .setPriority p e => .ok (⟨{ h.s with prio := p, effPrio := e }, h.r⟩, conn, .nothing)
  | .setWatermark w => .ok (⟨{ h.s with watermark := w }, h.r⟩, conn, .nothing)
  | .maxStreamData limit => do
    let s' ← h.s.setMaxStreamData conn limit
    .ok (⟨s', { h.r with limit := max h.r.limit limit }⟩, conn, .nothing)
  | .frames p rem split => do
    let (s', conn', w) ← h.s.writeFrames conn p rem split
    .ok (⟨s', h.r.sent w.frames⟩, conn', .wrote w)
  | .acked k =>
    match h.r.toks[k]? with
    | none => .ok (h, conn, .nothing)
    | some t => do
      let s' ← h.s.markAcked conn t.off t.len t.fin
      .ok (⟨s', { h.r with acks := k :: h.r.acks }⟩, conn, .nothing)
  | .lost k =>
    match h.r.toks[k]? with
    | none => .ok (h, conn, .nothing)
    | some t => do
      let s' ← h.s.markLost t.off t.len t.fin
      .ok (⟨s', { h.r with live := h.r.live.filter (· ≠ k) }⟩, conn, .nothing)
  | .resetAcked =>
    if h.r.resetSeen then .ok (⟨h.s.resetAcked, { h.r with resetAck := true }⟩, conn, .nothing)
    else .ok (h, conn, .nothing)
  | .resetLost =>
    if h.r.resetSeen then do
      let s' ← h.s.resetLost
      .ok (⟨s', h.r⟩, conn, .nothing)
    else .ok (h, conn, .nothing)
  | .blockedLost l => .ok (⟨h.s.blockedLost l, h.r⟩, conn, .nothing)
  | .connRaised previous current => do
    let s' ← h.s.maybeWritable conn previous current
    .ok (⟨s', h.r⟩, conn, .nothing)

/-- Run operations on one stream.  Each comes with the state of the connection's flow control at
the time, which depends on the other streams. -/
def Hist.run (h : Hist) : List (SFc × Op) → Except Err Hist
  | [] => .ok h
  | (conn, op) :: ops => do
    let (h', _, _) ← h.step conn op
    h'.run ops

/-- Byte `i` was in an acknowledged frame. -/
def Rec.Acked (r : Rec) (i : Nat) : Prop := ∃ k ∈ r.acks, ∃ t, r.toks[k]? = some t ∧ t.off ≤ i ∧ i < t.off + t.len

/-- Byte `i` is in a frame that was sent and has not been declared lost since. -/
def Rec.InFlight (r : Rec) (i : Nat) : Prop :=
  ∃ k ∈ r.live, ∃ t, r.toks[k]? = some t ∧ t.off ≤ i ∧ i < t.off + t.len

def Rec.FinAcked (r : Rec) : Prop := ∃ k ∈ r.acks, ∃ t, r.toks[k]? = some t ∧ t.fin = true
def Rec.FinInFlight (r : Rec) : Prop := ∃ k ∈ r.live, ∃ t, r.toks[k]? = some t ∧ t.fin = true

/-- Byte `i` was acknowledged or is in flight. -/
def Rec.Covered (r : Rec) (i : Nat) : Prop := r.Acked i ∨ r.InFlight i

/-- How much of the stream has to reach the peer: everything, or after a reset what was committed. -/
def Rec.goal (r : Rec) : Nat := if r.resetCalled then r.committed else r.written.length

/-- Histories that can happen. -/
def Reached (h : Hist) : Prop :=
  ∃ id m conn ops, id ≤ maxVarint ∧ m ≤ maxVarint ∧ (∀ p ∈ ops, p.2.Valid) ∧ (Hist.new id m conn).run ops = .ok h

/-- Largest offset any STREAM frame reached. -/
def maxEnd (ts : List Tok) : Nat := ts.foldr (fun t m => max (t.off + t.len) m) 0

/-- Byte `i` of the stream is still buffered with the right value. -/
def Stream.Buffered (s : Stream) (w : Bytes) (i : Nat) : Prop :=
  ∃ tx, (match s.state with
      | .send _ tx _ => some tx
      | .dataSent tx _ _ _ => some tx
      | .resetReliable tx _ _ _ _ _ => some tx
      | _ => none) = some tx ∧ tx.retired ≤ i ∧ tx.buf[i - tx.retired]? = w[i]?

/-! ## Sizes -/

/-- Encoded size of a frame of stream `id`. -/
def frameSize (id : Nat) : Frame → Except Err Nat
  | .stream off d _ fill =>
    match streamOverhead id off with
    | .error e => .error e
    | .ok a =>
      if fill then .ok (a + d.length)
      else
        match vlen d.length with
        | .error e => .error e
        | .ok b => .ok (a + b + d.length)
  | .reset err final => vlens [0x04, id, err, final]
  | .resetAt err final rel => vlens [0x24, id, err, final, rel]
  | .blocked l => vlens [0x15, id, l]

def framesSize (id : Nat) : List Frame → Except Err Nat
  | [] => .ok 0
  | f :: fs =>
    match frameSize id f with
    | .error e => .error e
    | .ok a =>
      match framesSize id fs with
      | .error e => .error e
      | .ok b => .ok (a + b)

/-! ## All streams of a connection -/

structure Conn where
  fc : SFc
  /-- Largest connection limit received. -/
  limit : Nat
  streams : List Hist := []
  deriving Repr, DecidableEq

inductive COp where
  /-- A stream is opened. -/
  | opens (id maxStreamData : Nat)
  | stream (k : Nat) (op : Op)
  /-- MAX_DATA arrives. -/
  | maxData (limit : Nat)
  /-- The peer's transport parameters set the connection limit (streams.rs:599-601). -/
  | initialMaxData (limit : Nat)
  /-- A chance to write DATA_BLOCKED. -/
  | write (fits : Bool)
  | blockedLost (limit : Nat)
  deriving Repr, DecidableEq

def Conn.new (maxData : Nat) : Conn := { fc := { limit := maxData }, limit := maxData }

/-- Tell every stream that the connection's limit was raised. -/
def raiseAll (fc : SFc) (previous current : Nat) : List Hist → Except Err (List Hist)
  | [] => .ok []
  | h :: hs => do
    let (h', _, _) ← h.step fc (.connRaised previous current)
    let hs' ← raiseAll fc previous current hs
    .ok (h' :: hs')

def Conn.step (c : Conn) : COp → Except Err Conn
  | .opens id m => .ok { c with streams := c.streams ++ [Hist.new id m c.fc] }
  | .stream k op =>
    match c.streams[k]? with
    | none => .ok c
    | some h => do
      let (h', fc', _) ← h.step c.fc op
      .ok { c with fc := fc', streams := c.streams.set k h' }
  | .maxData limit =>
    match c.fc.update limit with
    | (_, none) => .ok { c with limit := max c.limit limit }
    | (fc', some current) => do
      let streams ← raiseAll fc' c.fc.available current c.streams
      .ok { fc := fc', limit := max c.limit limit, streams := streams }
  | .initialMaxData limit => .ok { c with fc := (c.fc.update limit).1, limit := max c.limit limit }
  | .write fits => .ok { c with fc := (c.fc.write fits).1 }
  | .blockedLost l => .ok { c with fc := c.fc.frameLost l }

def Conn.run (c : Conn) : List COp → Except Err Conn
  | [] => .ok c
  | op :: ops => do
    let c' ← c.step op
    c'.run ops

end Neqo.Send
