import Verif.SendStream.TxModel
import Verif.RecvStream.RxModel
import Verif.Frames.Model
import Verif.Crypto.Sni

/-!
# Model of `CryptoStreams` (`neqo-transport/src/crypto.rs:1486-1790`)

The handshake messages of each packet number space are sent and received on a stream of their own, in
CRYPTO frames.  The buffers are those of `Verif.SendStream.TxModel` and `Verif.RecvStream.RxModel`; the frame
is written by `Frm.writeCrypto`.
-/
namespace Neqo.Crypto
open Neqo.Codec (Bytes)
open Neqo.Send (Tx)
open Neqo.Recv (Rx)

/-- Errors: those of the buffers, and the two that only these functions return. -/
inductive CErr where
  | panic
  | protocolViolation
  | internal
  | bufferExceeded
  deriving Repr, DecidableEq

/-- The buffer for sending and the writer of frames return no errors; they may panic. -/
def lift {α : Type} : Except Err α → Except CErr α
  | .ok a => .ok a
  | .error _ => .error .panic

/-! ## Sending -/

/-- A CRYPTO frame that was written, with its bytes. -/
structure CFrame where
  off : Nat
  data : Bytes
  wire : Bytes
  deriving Repr, DecidableEq

/-- `write_chunk` (crypto.rs:1654-1678). -/
def writeChunk (rem off : Nat) (data : Bytes) : Except Err (Option CFrame) :=
  match Frm.writeCrypto rem off data with
  | .error _ => .error .panic
  | .ok none => .ok none
  | .ok (some (w, n)) => .ok (some ⟨off, data.take n, w⟩)

/-- `split_at`, which panics outside the slice. -/
def splitAt (d : Bytes) (n : Nat) : Except Err (Bytes × Bytes) :=
  if d.length < n then .error .panic else .ok (d.take n, d.drop n)

/-- `limit_chunks` (crypto.rs:1699-1725): the left chunk, and the right one with its offset. -/
def limitChunks (left : Bytes) (roff : Nat) (right : Bytes) (limit : Nat) : Except Err (Bytes × Nat × Bytes) :=
  if left.length + right.length ≤ limit then .ok (left, roff, right)
  else if left.length ≤ limit then
    let n := right.length + left.length - limit
    match splitAt right n with
    | .error e => .error e
    | .ok (_, r) => .ok (left, roff + n, r)
  else if right.length ≤ limit then
    match splitAt left (limit - right.length) with
    | .error e => .error e
    | .ok (l, _) => .ok (l, roff, right)
  else
    match splitAt left (limit / 2), splitAt right (limit / 2) with
    | .ok (l, _), .ok (r, _) => .ok (l, roff, r)
    | _, _ => .error .panic

/-- The two chunks for data that starts at the beginning and has the name of the server at `a..b`
(crypto.rs:1737-1745); `limit` is that of the packet, and dividing by zero panics. -/
def slice (limit off : Nat) (data : Bytes) (a b : Nat) : Except Err (Bytes × Nat × Bytes) :=
  let mid := a + (b - a) / 2
  match splitAt data mid with
  | .error e => .error e
  | .ok (left, right) =>
    if limit = 0 then .error .panic
    else
      let packets := (data.length + limit - 1) / limit
      if packets = 0 then .error .panic
      else limitChunks left (off + mid) right (data.length / packets)

/-- One turn of the loop in `write_frame` (crypto.rs:1735-1758): what is written of `data`. -/
def chunks (sni : Bool) (limit rem off : Nat) (data : Bytes) : Except Err (Option CFrame × Option CFrame) :=
  match if sni && off == 0 then Sni.findSni data else none with
  | some (a, b) =>
    match slice limit off data a b with
    | .error e => .error e
    | .ok (left, roff, right) =>
      match writeChunk rem roff right with
      | .error e => .error e
      | .ok x =>
        match writeChunk (rem - (x.map (·.wire.length)).getD 0) off left with
        | .error e => .error e
        | .ok y => .ok (x, y)
  | none =>
    match writeChunk rem off data with
    | .error e => .error e
    | .ok x => .ok (x, none)

/-- The loop of `write_frame` (crypto.rs:1730-1773): the frames written.  `split` tells how the deque is
divided (see `Tx.next`).  Every turn but the last writes something, so `rem + 1` turns are enough; that this
is so is part of `writeLoop_ok`. -/
def writeLoop (sni : Bool) (limit split : Nat) : Nat → Tx → Nat → Except Err (Tx × List CFrame)
  | 0, _, _ => .error .panic
  | fuel + 1, t, rem =>
    match t.next split with
    | .error e => .error e
    | .ok (t, none) => .ok (t, [])
    | .ok (t, some (off, data)) =>
      match chunks sni limit rem off data with
      | .error e => .error e
      | .ok (none, none) => .ok (t, [])
      | .ok (some f, some g) =>
        match t.markSent f.off f.data.length with
        | .error e => .error e
        | .ok t =>
          match t.markSent g.off g.data.length with
          | .error e => .error e
          | .ok t => .ok (t, [f, g])
      | .ok (some f, none) | .ok (none, some f) =>
        match t.markSent f.off f.data.length with
        | .error e => .error e
        | .ok t =>
          match writeLoop sni limit split fuel t (rem - f.wire.length) with
          | .error e => .error e
          | .ok (t, fs) => .ok (t, f :: fs)

/-- `write_frame` (crypto.rs:1646-1773) for the stream of a space. -/
def write (sni : Bool) (limit rem split : Nat) (t : Tx) : Except Err (Tx × List CFrame) :=
  writeLoop sni limit split (rem + 1) t rem

/-- `TxBuffer::unmark_sent` (send_stream.rs:571-573). -/
def unmarkSent (t : Tx) : Except Err Tx :=
  match t.ranges.unmarkSent with
  | .ok r => .ok { t with ranges := r }
  | .error e => .error e

/-- `TxBuffer::is_empty` (send_stream.rs:505-507). -/
def isEmpty (t : Tx) : Bool := t.first.2.isNone

/-! ## Receiving -/

/-- `BUFFER_LIMIT` (crypto.rs:1510). -/
def bufferLimit : Nat := 65536

/-- `inbound_frame` (crypto.rs:1552-1565). -/
def inbound (s : Rx) (off : Nat) (data : Bytes) : Except CErr Rx :=
  if data ≠ [] ∧ s.retired + bufferLimit < off then .error .bufferExceeded
  else
    match s.inboundFrame off data with
    | .error _ => .error .bufferExceeded
    | .ok s =>
      if s.received < s.retired then .error .panic
      else if s.received - s.retired ≤ bufferLimit then .ok s
      else .error .bufferExceeded

/-- What the connection does with a CRYPTO frame (connection/mod.rs:3405-3439): the bytes are what TLS is
given; if there are none, TLS is not called, and frames are sent again. -/
def receive (s : Rx) (off : Nat) (data : Bytes) : Except CErr (Rx × Bytes) :=
  match inbound s off data with
  | .error e => .error e
  | .ok s =>
    if s.dataReady then
      match s.readToEnd with
      | .error _ => .error .panic
      | .ok (s, out) => .ok (s, out)
    else .ok (s, [])

/-! ## One stream, and what has happened on it -/

/-- `CryptoStream` (crypto.rs:1487-1490) with its history: the messages that TLS handed over (`given`), the
bytes accepted for sending (`written`), the frames sent, in order, those of them acknowledged, those
neither acknowledged nor given up, and the bytes handed to TLS. -/
structure CStream where
  tx : Tx := {}
  rx : Rx := {}
  given : Bytes := []
  written : Bytes := []
  frames : List CFrame := []
  acks : List Nat := []
  live : List Nat := []
  delivered : Bytes := []
  deriving Repr, DecidableEq

/-- Operations on a stream.  Frames are referred to by their place among those sent. -/
inductive COp where
  | send (data : Bytes)
  | write (sni : Bool) (limit rem split : Nat)
  | acked (k : Nat)
  | lost (k : Nat)
  | resend
  | receive (off : Nat) (data : Bytes)
  deriving Repr, DecidableEq

/-- `send` (crypto.rs:1542-1548): the number of bytes accepted is not looked at. -/
def CStream.send (c : CStream) (data : Bytes) : Except CErr CStream :=
  match lift (c.tx.send data) with
  | .error e => .error e
  | .ok (t, n) => .ok { c with tx := t, given := c.given ++ data, written := c.written ++ data.take n }

def CStream.write (c : CStream) (sni : Bool) (limit rem split : Nat) : Except CErr CStream :=
  match lift (Crypto.write sni limit rem split c.tx) with
  | .error e => .error e
  | .ok (t, fs) =>
    .ok { c with tx := t, frames := c.frames ++ fs,
                 live := c.live ++ (List.range fs.length).map (c.frames.length + ·) }

/-- `acked` (crypto.rs:1579-1583). -/
def CStream.acked (c : CStream) (k : Nat) : Except CErr CStream :=
  match c.frames[k]? with
  | none => .ok c
  | some f =>
    match lift (c.tx.markAcked f.off f.data.length) with
    | .error e => .error e
    | .ok t => .ok { c with tx := t, acks := k :: c.acks, live := c.live.filter (· ≠ k) }

/-- `lost` (crypto.rs:1585-1590). -/
def CStream.lost (c : CStream) (k : Nat) : Except CErr CStream :=
  match c.frames[k]? with
  | none => .ok c
  | some f =>
    match lift (c.tx.markLost f.off f.data.length) with
    | .error e => .error e
    | .ok t => .ok { c with tx := t, live := c.live.filter (· ≠ k) }

/-- `resend_unacked` (crypto.rs:1594-1600). -/
def CStream.resend (c : CStream) : Except CErr CStream :=
  match lift (unmarkSent c.tx) with
  | .error e => .error e
  | .ok t => .ok { c with tx := t, live := [] }

def CStream.receive (c : CStream) (off : Nat) (data : Bytes) : Except CErr CStream :=
  match Crypto.receive c.rx off data with
  | .error e => .error e
  | .ok (s, out) => .ok { c with rx := s, delivered := c.delivered ++ out }

def CStream.step (c : CStream) : COp → Except CErr CStream
  | .send d => c.send d
  | .write sni limit rem split => c.write sni limit rem split
  | .acked k => c.acked k
  | .lost k => c.lost k
  | .resend => c.resend
  | .receive off d => c.receive off d

def CStream.run (c : CStream) : List COp → Except CErr CStream
  | [] => .ok c
  | op :: ops =>
    match c.step op with
    | .ok c => c.run ops
    | .error e => .error e

/-! ## The three spaces -/

inductive Space where
  | initial
  | handshake
  | app
  deriving Repr, DecidableEq

/-- `CryptoStreams` (crypto.rs:1493-1506). -/
inductive Streams where
  | initial (i h a : CStream)
  | handshake (h a : CStream)
  | application (a : CStream)
  deriving Repr, DecidableEq

/-- `get` and `get_mut` (crypto.rs:1606-1644). -/
def Streams.get : Streams → Space → Option CStream
  | .initial i _ _, .initial => some i
  | .initial _ h _, .handshake => some h
  | .initial _ _ a, .app => some a
  | .handshake _ _, .initial => none
  | .handshake h _, .handshake => some h
  | .handshake _ a, .app => some a
  | .application _, .initial => none
  | .application _, .handshake => none
  | .application a, .app => some a

/-- The effect of a change through the reference that `get_mut` returns. -/
def Streams.set : Streams → Space → CStream → Streams
  | .initial _ h a, .initial, c => .initial c h a
  | .initial i _ a, .handshake, c => .initial i c a
  | .initial i h _, .app, c => .initial i h c
  | .handshake _ a, .handshake, c => .handshake c a
  | .handshake h _, .app, c => .handshake h c
  | .application _, .app, c => .application c
  | s, _, _ => s

/-- `discard` (crypto.rs:1512-1540). -/
def Streams.discard : Streams → Space → Except CErr Streams
  | .initial _ h a, .initial => .ok (.handshake h a)
  | .handshake _ a, .handshake => .ok (.application a)
  | .initial .., .handshake => .error .panic
  | _, .app => .error .panic
  | s, _ => .ok s

/-- What an operation does when the space has been discarded: `send` and `inbound_frame` return errors
(crypto.rs:1544, 1553), the others do nothing. -/
def missing (s : Streams) : COp → Except CErr Streams
  | .send _ => .error .protocolViolation
  | .receive .. => .error .internal
  | _ => .ok s

inductive Op where
  | on (space : Space) (op : COp)
  | discard (space : Space)
  deriving Repr, DecidableEq

/-- `resend_unacked` does nothing for application data (crypto.rs:1594-1600). -/
def Streams.step (s : Streams) : Op → Except CErr Streams
  | .discard sp => s.discard sp
  | .on sp op =>
    if sp = .app ∧ op = .resend then .ok s
    else
      match s.get sp with
      | none => missing s op
      | some c =>
        match c.step op with
        | .error e => .error e
        | .ok c => .ok (s.set sp c)

def Streams.run (s : Streams) : List Op → Except CErr Streams
  | [] => .ok s
  | op :: ops =>
    match s.step op with
    | .ok s => s.run ops
    | .error e => .error e

/-- `default` (crypto.rs:1777-1783). -/
def Streams.init : Streams := .initial {} {} {}

end Neqo.Crypto
