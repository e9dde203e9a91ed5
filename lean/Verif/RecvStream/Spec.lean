import Verif.RecvStream.Model

/-!
# Histories of a connection's receive streams

A connection has any number of receive streams sharing one connection-level flow control.
Beside the modelled state, each stream carries a record of what was observable from
outside: what the peer sent, what the application got.
-/
namespace Neqo.RecvS
open Neqo.Codec (Bytes)
open Neqo.Flow (RFc)

/-- Operations on one stream. -/
inductive Op where
  /-- A STREAM frame arrives. -/
  | frame (fin : Bool) (offset : Nat) (data : Bytes)
  /-- A RESET_STREAM (`reliable = 0`) or RESET_STREAM_AT frame arrives. -/
  | reset (err finalSize reliable : Nat)
  /-- The application reads into a buffer of `n` bytes. -/
  | read (n : Nat)
  /-- The application abandons the stream. -/
  | stopSending (err : Nat)
  | stopSendingAcked
  | stopSendingLost
  /-- A chance to write frames for this stream. -/
  | write (fits : Bool) (now rtt : Nat)
  | maxStreamDataLost (limit : Nat)
  /-- STREAM_DATA_BLOCKED arrives. -/
  | peerBlocked
  /-- The application changes the stream's receive window. -/
  | setWindow (w : Nat)
  deriving Repr, DecidableEq

/-- What the outside sees of one operation. -/
inductive Out where
  | nothing
  | data (bytes : Bytes) (fin : Bool)
  | noMoreData
  | sent (f : Frame)
  | sentMaxData (limit : Nat)
  deriving Repr, DecidableEq

/-- A stream and its observable history. -/
structure Tr where
  st : State
  /-- Initial stream limit, then every MAX_STREAM_DATA sent; latest first. -/
  advertised : List Nat
  /-- STREAM frames accepted so far. -/
  frames : List (Nat × Bytes) := []
  /-- Final sizes announced by accepted frames (fin or reset), until the stream ended. -/
  ends : List Nat := []
  /-- Highest offset the peer has used, counting announced final sizes, until the stream ended. -/
  hi : Nat := 0
  /-- Bytes handed to the application, in order. -/
  delivered : Bytes := []
  /-- The application has been told about the end of the stream. -/
  finSeen : Bool := false

def Tr.new (maxStreamData : Nat) : Tr := { st := .new maxStreamData, advertised := [maxStreamData] }

/-- Record an accepted frame that ends at `e` (`fin`: it announces the final size).  Frames for a
stream that has ended are ignored by the implementation and are not recorded. -/
def Tr.note (t : Tr) (fin : Bool) (e : Nat) : Tr :=
  if t.st.isEnded then t
  else { t with hi := max t.hi e, ends := if fin then e :: t.ends else t.ends }

/-- Record the bytes of an accepted STREAM frame. -/
def Tr.noteFrame (t : Tr) (off : Nat) (d : Bytes) : Tr :=
  if t.st.isEnded then t else { t with frames := (off, d) :: t.frames }

/-- One operation on one stream. -/
def Tr.step (t : Tr) (ses : RFc) : Op → Except Err (Tr × RFc × Out)
  | .frame fin off d => do
    let (st', ses', _) ← t.st.inboundFrame ses fin off d
    pure ({ (t.note fin (off + d.length)).noteFrame off d with st := st' }, ses', .nothing)
  | .reset err fs rel => do
    let (st', ses', _, _) ← t.st.reset ses err fs rel
    pure ({ t.note true fs with st := st' }, ses', .nothing)
  | .read n =>
    match t.st.read ses n with
    | .ok (st', ses', out, fin, _) =>
      .ok ({ t with st := st', delivered := t.delivered ++ out, finSeen := t.finSeen || fin }, ses',
        .data out fin)
    | .error .noMoreData => .ok (t, ses, .noMoreData)
    | .error e => .error e
  | .stopSending err => do
    let (st', ses', _, _) ← t.st.stopSending ses err
    pure ({ t with st := st' }, ses', .nothing)
  | .stopSendingAcked => .ok ({ t with st := t.st.stopSendingAcked.1 }, ses, .nothing)
  | .stopSendingLost => .ok ({ t with st := t.st.stopSendingLost }, ses, .nothing)
  | .write fits now rtt => do
    let (st', o) ← t.st.writeFrame fits now rtt
    pure ({ t with
              st := st'
              advertised := match o with
                | some (.maxStreamData l) => l :: t.advertised
                | _ => t.advertised }, ses,
      match o with | some f => .sent f | none => .nothing)
  | .maxStreamDataLost l => .ok ({ t with st := t.st.maxStreamDataLost l }, ses, .nothing)
  | .peerBlocked => .ok ({ t with st := t.st.sendFlowcUpdate }, ses, .nothing)
  | .setWindow w => .ok ({ t with st := t.st.setStreamMaxData w }, ses, .nothing)

/-- A connection: shared flow control, the limits it advertised (latest first), streams. -/
structure Conn where
  ses : RFc
  advertised : List Nat
  streams : List Tr := []

def Conn.new (maxData : Nat) : Conn := { ses := .new maxData, advertised := [maxData] }

inductive COp where
  | newStream (maxStreamData : Nat)
  | onStream (i : Nat) (op : Op)
  /-- A chance to write MAX_DATA. -/
  | write (fits : Bool) (now rtt : Nat)
  | maxDataLost (limit : Nat)
  /-- DATA_BLOCKED arrives. -/
  | peerBlocked
  deriving Repr, DecidableEq

def Conn.step (c : Conn) : COp → Except Err (Conn × Out)
  | .newStream m => .ok ({ c with streams := c.streams ++ [Tr.new m] }, .nothing)
  | .onStream i op =>
    match c.streams[i]? with
    | none => .ok (c, .nothing)
    | some t => do
      let (t', ses', o) ← t.step c.ses op
      pure ({ c with ses := ses', streams := c.streams.set i t' }, o)
  | .write fits now rtt => do
    let (ses', o) ← c.ses.write fits now rtt Flow.maxLocalMaxData
    pure ({ c with
              ses := ses'
              advertised := match o with | some l => l :: c.advertised | none => c.advertised },
      match o with | some l => .sentMaxData l | none => .nothing)
  | .maxDataLost l => .ok ({ c with ses := c.ses.frameLost l }, .nothing)
  | .peerBlocked => .ok ({ c with ses := c.ses.sendFlowcUpdate }, .nothing)

def Conn.run (c : Conn) : List COp → Except Err (Conn × List Out)
  | [] => .ok (c, [])
  | op :: ops => do
    let (c1, o) ← c.step op
    let (c2, os) ← c1.run ops
    pure (c2, o :: os)

/-- Bytes the peer has used on this stream whose credit has not been returned: what has arrived
(or is still due) and may yet be delivered.  Nothing once the stream is abandoned or ended; only
the reliable part after a reliable reset. -/
def Tr.outstanding (t : Tr) : Nat :=
  match t.st with
  | .recv .. | .sizeKnown .. | .dataRecvd .. => t.hi - t.delivered.length
  | .sizeKnownAt _ _ _ _ rel => rel - t.delivered.length
  | .abortReading .. | .waitForReset .. | .dataRead .. | .resetRecvd .. => 0

/-- Some accepted frame carried byte `b` at offset `i`. -/
def Tr.Carried (t : Tr) (i : Nat) (b : UInt8) : Prop :=
  ∃ off d, (off, d) ∈ t.frames ∧ off ≤ i ∧ d[i - off]? = some b

/-- An operation is sane: limits fit a QUIC variable-length integer, and the application does not
shrink a stream's receive window below its present size. -/
def Sane (c : Conn) : COp → Prop
  | .newStream m => m ≤ 2 ^ 62 - 1
  | .onStream i (.setWindow w) =>
    ∀ t fc buf, c.streams[i]? = some t → t.st = .recv fc buf → fc.maxActive ≤ w
  | _ => True

/-- All operations of a history are sane. -/
def SaneRun : Conn → List COp → Prop
  | _, [] => True
  | c, op :: ops => Sane c op ∧ ∀ c1 o, c.step op = .ok (c1, o) → SaneRun c1 ops

/-- No STREAM frame with the FIN bit arrives on a stream that is waiting for a reset (the
application abandoned it and the peer acknowledged that). -/
def NoFinWhileWaiting : Conn → List COp → Prop
  | _, [] => True
  | c, op :: ops =>
    (∀ i off d t fc a b, op = .onStream i (.frame true off d) → c.streams[i]? = some t →
      t.st ≠ .waitForReset fc a b) ∧
    ∀ c1 o, c.step op = .ok (c1, o) → NoFinWhileWaiting c1 ops

/-- Results of the reads of stream `i`, in order. -/
def readsOf (i : Nat) : List COp → List Out → List Out
  | .onStream j (.read _) :: ops, o :: os =>
    if j = i then o :: readsOf i ops os else readsOf i ops os
  | _ :: ops, _ :: os => readsOf i ops os
  | _, _ => []

/-- Bytes obtained by a sequence of reads. -/
def bytesOf : List Out → Bytes
  | [] => []
  | .data b _ :: os => b ++ bytesOf os
  | _ :: os => bytesOf os

/-- The sum of a quantity over streams. -/
def sumBy (f : Tr → Nat) : List Tr → Nat
  | [] => 0
  | t :: ts => f t + sumBy f ts

/-- The stream has neither ended nor been abandoned or reset. -/
def Tr.Active (t : Tr) : Prop :=
  (∃ fc buf, t.st = .recv fc buf) ∨ (∃ fc buf, t.st = .sizeKnown fc buf) ∨
  (∃ fc buf, t.st = .dataRecvd fc buf)

/-- The application abandoned the stream and the peer knows. -/
def Tr.Waiting (t : Tr) : Prop := ∃ fc a b, t.st = .waitForReset fc a b

end Neqo.RecvS
