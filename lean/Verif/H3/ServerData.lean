import Verif.H3.EndToEnd

/-!
# What `Http3Server` does with the data of a request

A server application does not read: `Http3Server` takes the events of each connection,
reads the data of a stream that is reported readable, and passes them on in its own
events.  The receiving side of a stream (`Verif/H3/RecvMessage.lean`) reports a stream
readable only when it runs while the stream is at the payload of a `DATA` frame, so data
that the server left behind would stay there.
-/
namespace Neqo.H3
open Neqo.Codec

variable {D H : Type}

/-- What the server's own events tell the application about a request
(`headers`, server_events.rs:311-322; `data`, 330-343; a session). -/
inductive SrvEv (H : Type) where
  | headers (h : H) (fin : Bool)
  | data (bs : Bytes) (fin : Bool)
  | session (h : H)
  deriving Repr, DecidableEq

/-- The events for what a stream passes up (server.rs:199-222, 251-276): a read without
bytes and without the end makes none (server.rs:397). -/
def Up.event : Up D H → Option (SrvEv H)
  | .headers h _ fin => some (.headers h fin)
  | .connect h => some (.session h)
  | .data bs fin => if bs = [] ∧ fin = false then none else some (.data bs fin)
  | _ => none

/-- What a read returned. -/
def Rm.lastRead (m : Rm D H) : Bytes × Bool :=
  match m.out.getLast? with
  | some (.data bs fin) => (bs, fin)
  | _ => ([], false)

/-- `prepare_data` (server.rs:380-413) with a buffer of `room` bytes.  A stream that is
closed is not found (connection.rs:1018-1021), which ends the loop.  `fuel` bounds the
passes. -/
def Rm.prepare (C : Ctx D H) (E : Env D) (room : Nat) : Nat → Rm D H → Rm D H × Option RErr
  | 0, m => (m, some .panic)
  | fuel + 1, m =>
    if m.st = .closed then (m, none)
    else
      match m.step C (.read room E) with
      | (m1, some e) => (m1, some e)
      | (m1, none) =>
        if m1.lastRead.1.length < room ∨ m1.lastRead.2 = true then (m1, none)
        else m1.prepare C E room fuel

/-- What happens to a stream at the connection: bytes, or insertions into the QPACK
table. -/
inductive Arrival (D : Type) where
  | bytes (bs : Bytes) (fin : Bool) (e : Env D)
  | table (n : Nat) (e : Env D)

def Arrival.op : Arrival D → RmOp D
  | .bytes bs fin E => .arrive bs fin E
  | .table n E => .insert n E

def Up.isReadable : Up D H → Bool
  | .readable => true
  | _ => false

/-- The `DataReadable` events among what was passed up. -/
def reports (l : List (Up D H)) : Nat := (l.filter Up.isReadable).length

/-- The `DataReadable` events in the queue (server.rs:197, 213-222). -/
def Rm.prepareAll (C : Ctx D H) (E : Env D) (room : Nat) : Nat → Rm D H → Rm D H × Option RErr
  | 0, m => (m, none)
  | k + 1, m =>
    match m.prepare C E room (m.src.avail.length + 1) with
    | (m1, some e) => (m1, some e)
    | (m1, none) => m1.prepareAll C E room k

/-- `Http3Server::process_events` (server.rs:184-337) for one stream: first the events of
the transport are handled, whatever they are, then the stream's own events.  `E` is what
the QPACK decoder says during the reads. -/
def Rm.serve (C : Ctx D H) (room : Nat) (m : Rm D H) (x : List (Arrival D) × Env D) : Rm D H × Option RErr :=
  match m.run C (x.1.map Arrival.op) with
  | (m1, some e) => (m1, some e)
  | (m1, none) => m1.prepareAll C x.2 room (reports m1.out - reports m.out)

/-- A history at the server. -/
def Rm.serveRun (C : Ctx D H) (room : Nat) : Rm D H → List (List (Arrival D) × Env D) → Rm D H × Option RErr
  | m, [] => (m, none)
  | m, x :: xs =>
    match m.serve C room x with
    | (m1, some e) => (m1, some e)
    | (m1, none) => m1.serveRun C room xs

/-- `MAX_EVENT_DATA_SIZE` (server.rs:37). -/
def maxEventData : Nat := 1024

end Neqo.H3

namespace Neqo.H3.Spec
open Neqo.Codec (Bytes)
open Neqo.H3

variable {D H : Type}

/-- What a server application learns of a message. -/
def learned (l : List (SrvEv H)) : List (Ev D H) :=
  l.flatMap fun x => match x with
    | .headers h fin => .headers h :: (if fin then [.fin] else [])
    | .data bs fin => bs.map .byte ++ (if fin then [.fin] else [])
    | .session h => [.connect h]

/-- All that has arrived of a stream. -/
def arrived (xs : List (List (Arrival D) × Env D)) : Src :=
  total ⟨[], false⟩ ((xs.flatMap Prod.fst).map Arrival.op)

end Neqo.H3.Spec
