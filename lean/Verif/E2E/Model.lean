import Verif.SendStream.Spec
import Verif.RecvStream.Spec

/-!
# Two endpoints and the network between them

The sending half of one endpoint's streams (`Send.Conn`, all its streams sharing one connection
limit) and the receiving half of the other's (`RecvS.Conn`), joined by a network that may lose,
repeat, delay and reorder what it carries.  Stream `k` of the sender is stream `k` of the receiver.

Simplifications.  Frames travel one by one rather than in packets; packets are C01–C04 and
C22–C26, and what is shown here holds however frames are grouped.  A frame may arrive any number of
times (packet numbers would let it arrive once).  The receiving state of a stream is created
together with the sending state rather than when the first frame arrives; until then it does not
change.  Stream counts and stream identifiers are C14–C16.
-/
namespace Neqo.E2E
open Neqo.Codec (Bytes maxVarint)

structure Sys where
  snd : Send.Conn
  rcv : RecvS.Conn
  /-- For each stream, which of the frames that were sent have arrived (by index). -/
  arrived : List (List Nat) := []
  /-- STOP_SENDING frames that were sent: stream and error code. -/
  stops : List (Nat × Nat) := []
  /-- Everything the receiving endpoint did, and what that showed. -/
  rops : List RecvS.COp := []
  routs : List RecvS.Out := []

/-- Both ends know the receiver's limit `m` for the connection; a client that resumes may start
from a smaller one that it remembers (streams.rs:599-601). -/
def Sys.new (m0 m : Nat) : Sys := { snd := .new m0, rcv := .new m }

inductive Ev where
  /-- A stream comes into being, with the limit the sender knows and the receiver's. -/
  | opens (id ms mr : Nat)
  /-- The sender's application, its packet builder and its loss detection. -/
  | send (k : Nat) (op : Send.Op)
  /-- The sender builds a packet that may carry DATA_BLOCKED, or declares one lost. -/
  | blockedWrite (fits : Bool)
  | blockedLost (l : Nat)
  /-- The `j`-th frame of stream `k` arrives at the receiver. -/
  | arrive (k j : Nat)
  /-- The sender gets an acknowledgement of the `j`-th frame of stream `k`. -/
  | ack (k j : Nat)
  /-- The receiver's application and its packet builder and loss detection. -/
  | recv (k : Nat) (op : RecvS.Op)
  /-- The receiver builds a packet that may carry MAX_DATA, or declares one lost. -/
  | maxDataWrite (fits : Bool) (now rtt : Nat)
  | maxDataLost (l : Nat)
  /-- DATA_BLOCKED arrives. -/
  | dataBlocked
  /-- MAX_STREAM_DATA, MAX_DATA, the limit in the transport parameters and STOP_SENDING arrive at
  the sender. -/
  | raise (k l : Nat)
  | raiseConn (l : Nat)
  | params (l : Nat)
  | stop (k err : Nat)
  /-- The receiver's application sets the window of a stream. -/
  | window (k w : Nat)
  deriving Repr, DecidableEq

/-- Operations that the sender does of its own accord. -/
def localSnd : Send.Op → Bool
  | .reset e => e ≤ maxVarint
  | .write _ _ | .close | .commit | .setPriority _ _ | .setWatermark _ | .frames _ _ _ | .lost _
  | .resetLost | .blockedLost _ => true
  | _ => false

/-- Operations that the receiver does of its own accord. -/
def localRcv : RecvS.Op → Bool
  | .read _ | .stopSending _ | .stopSendingAcked | .stopSendingLost | .write _ _ _
  | .maxStreamDataLost _ => true
  | _ => false

/-- What the receiver does with a frame (`Streams::input_frame`, streams.rs:139-256). -/
def arrival : Send.Frame → RecvS.Op
  | .stream off d fin _ => .frame fin off d
  | .reset e f => .reset e f 0
  | .resetAt e f x => .reset e f x
  | .blocked _ => .peerBlocked

/-- What the acknowledgement of a frame does (`Streams::acked`, streams.rs:367-382).  STREAM frames
are told apart by their position among the STREAM frames. -/
def ackOp (fs : List Send.Frame) (j : Nat) : Option Send.Op :=
  match fs[j]? with
  | some (.stream _ _ _ _) => some (.acked ((fs.take j).filterMap Send.tokOf).length)
  | some (.reset _ _) | some (.resetAt _ _ _) => some .resetAcked
  | some (.blocked _) | none => none

/-- A STOP_SENDING frame that an operation put into a packet. -/
def stopOf : RecvS.COp → RecvS.Out → List (Nat × Nat)
  | .onStream k _, .sent (.stopSending e) => [(k, e)]
  | _, _ => []

def Sys.onSnd (s : Sys) (op : Send.COp) : Except Err Sys :=
  match s.snd.step op with
  | .error e => .error e
  | .ok c => .ok { s with snd := c }

def Sys.onRcv (s : Sys) (op : RecvS.COp) : Except Err Sys :=
  match s.rcv.step op with
  | .error e => .error e
  | .ok (c, o) =>
    .ok { s with rcv := c, stops := stopOf op o ++ s.stops, rops := s.rops ++ [op], routs := s.routs ++ [o] }

/-- The limits the receiver has announced for a stream. -/
def Sys.announced (s : Sys) (k : Nat) : List Nat := (s.rcv.streams[k]?.map RecvS.Tr.advertised).getD []

/-- One event.  Events that cannot happen (the arrival of a frame that was not sent, …) do nothing. -/
def Sys.step (s : Sys) : Ev → Except Err Sys
  | .opens id ms mr =>
    if id ≤ maxVarint ∧ ms ≤ mr ∧ mr ≤ maxVarint then
      match s.onSnd (.opens id ms) with
      | .error e => .error e
      | .ok s1 =>
        match s1.onRcv (.newStream mr) with
        | .error e => .error e
        | .ok s2 => .ok { s2 with arrived := s2.arrived ++ [[]] }
    else .ok s
  | .send k op => if localSnd op then s.onSnd (.stream k op) else .ok s
  | .blockedWrite fits => s.onSnd (.write fits)
  | .blockedLost l => s.onSnd (.blockedLost l)
  | .arrive k j =>
    match s.snd.streams[k]? with
    | none => .ok s
    | some h =>
      match h.r.frames[j]? with
      | none => .ok s
      | some f =>
        match s.onRcv (.onStream k (arrival f)) with
        | .error e => .error e
        | .ok s' => .ok { s' with arrived := s'.arrived.modify k (j :: ·) }
  | .ack k j =>
    match s.snd.streams[k]?, s.arrived[k]? with
    | some h, some ar =>
      if j ∈ ar then
        match ackOp h.r.frames j with
        | none => .ok s
        | some op => s.onSnd (.stream k op)
      else .ok s
    | _, _ => .ok s
  | .recv k op => if localRcv op then s.onRcv (.onStream k op) else .ok s
  | .maxDataWrite fits now rtt => s.onRcv (.write fits now rtt)
  | .maxDataLost l => s.onRcv (.maxDataLost l)
  | .dataBlocked => s.onRcv .peerBlocked
  | .raise k l => if l ∈ s.announced k then s.onSnd (.stream k (.maxStreamData l)) else .ok s
  | .raiseConn l => if l ∈ s.rcv.advertised then s.onSnd (.maxData l) else .ok s
  | .params l => if l ∈ s.rcv.advertised then s.onSnd (.initialMaxData l) else .ok s
  | .stop k err =>
    if (k, err) ∈ s.stops ∧ err ≤ maxVarint then s.onSnd (.stream k (.stopSending err)) else .ok s
  | .window k w => s.onRcv (.onStream k (.setWindow w))

def Sys.run (s : Sys) : List Ev → Except Err Sys
  | [] => .ok s
  | e :: es =>
    match s.step e with
    | .error x => .error x
    | .ok s' => s'.run es

/-- The application does not make a stream's receive window smaller than it is. -/
def Keeps (s : Sys) : Ev → Prop
  | .window k w => ∀ t fc buf, s.rcv.streams[k]? = some t → t.st = .recv fc buf → fc.maxActive ≤ w
  | _ => True

/-- Throughout a run, no receive window is made smaller. -/
def KeepsAll : Sys → List Ev → Prop
  | _, [] => True
  | s, e :: es => Keeps s e ∧ ∀ s', s.step e = .ok s' → KeepsAll s' es

/-- States that two endpoints can get into. -/
def Reached (s : Sys) : Prop :=
  ∃ m0 m evs, m0 ≤ m ∧ m ≤ maxVarint ∧ KeepsAll (Sys.new m0 m) evs ∧ (Sys.new m0 m).run evs = .ok s

/-- What the receiving application has read from stream `k`. -/
def Sys.read (s : Sys) (k : Nat) : Bytes := RecvS.bytesOf (RecvS.readsOf k s.rops s.routs)

/-- The receiving application has been told that stream `k` is at its end. -/
def Sys.sawFin (s : Sys) (k : Nat) : Prop := ∃ b, RecvS.Out.data b true ∈ RecvS.readsOf k s.rops s.routs

/-- What the sending application has written to stream `k`, and whether it closed or reset it. -/
def Sys.written (s : Sys) (k : Nat) : Bytes := (s.snd.streams[k]?.map (fun h => h.r.written)).getD []
def Sys.closed (s : Sys) (k : Nat) : Bool := (s.snd.streams[k]?.map (fun h => h.r.closed)).getD false
def Sys.wasReset (s : Sys) (k : Nat) : Bool := (s.snd.streams[k]?.map (fun h => h.r.resetCalled)).getD false

end Neqo.E2E
