import Verif.H3.SendProps

/-!
# Priorities of requests: `neqo-http3/src/priority.rs`, `control_stream_local.rs`

A client's application gives a request a priority when it makes it and may change it
later.  Changes are told to the server with PRIORITY_UPDATE frames on the control
stream.  The control stream also carries the other control frames, which go through a
buffer; updates are written past the buffer, whole or not at all.
-/
namespace Neqo.H3
open Neqo.Codec

/-- `struct PriorityHandler` (priority.rs:101-106). -/
structure PrioHandler where
  push : Bool
  prio : Priority
  last : Priority
  deriving Repr, DecidableEq

/-- `impl Default for Priority` (priority.rs:20-27). -/
def Priority.default : Priority := ⟨3, false⟩

/-- `PriorityHandler::new` (priority.rs:109-115). -/
def PrioHandler.new (push : Bool) (p : Priority) : PrioHandler := ⟨push, p, p⟩

/-- `PriorityHandler::maybe_update_priority` (priority.rs:122-129). -/
def PrioHandler.update (h : PrioHandler) (p : Priority) : PrioHandler × Bool :=
  if p = h.prio then (h, false) else ({ h with prio := p }, true)

/-- `PriorityHandler::priority_update_sent` (priority.rs:131-133). -/
def PrioHandler.sent (h : PrioHandler) : PrioHandler := { h with last := h.prio }

/-- `PriorityHandler::maybe_encode_frame` (priority.rs:136-150). -/
def PrioHandler.frame (h : PrioHandler) (id : Nat) : Option HFrame :=
  if h.prio = h.last then none
  else if h.push then some (.priorityUpdatePush id h.prio)
  else some (.priorityUpdateRequest id h.prio)

/-- `struct ControlStreamLocal` (control_stream_local.rs:21-27) with its buffered stream
(buffered_send_stream.rs:13-24) and the receiving sides of the requests and pushed streams
of the connection (`recv_streams`, of which only the priority matters here).  `out` is what
the transport has accepted.  `written` is not in the code: the frames in the order in which
they were put into the buffer or sent. -/
structure Control where
  streams : Nat → Option PrioHandler
  outstanding : List Nat
  buf : Bytes
  out : Bytes
  written : List Sent

/-- `ControlStreamLocal::create` (control_stream_local.rs:93-99): the type of the stream. -/
def Control.create : Control := ⟨fun _ => none, [], [0], [], []⟩

def Control.setStream (c : Control) (id : Nat) (h : Option PrioHandler) : Control :=
  { c with streams := fun i => if i = id then h else c.streams i }

/-- `ControlStreamLocal::queue_frame` (control_stream_local.rs:37-39).  `none`: a number that
does not fit, which panics. -/
def Control.queueFrame (c : Control) (s : Sent) : Option Control := do
  let bs ← s.encode displayPriority
  pure { c with buf := c.buf ++ bs, written := c.written ++ [s] }

/-- `Http3Connection::queue_update_priority` (connection.rs:1796-1814), which is all that
`Http3Client::priority_update` does (connection_client.rs:600-602).  `none` is the error
`InvalidStreamId`. -/
def Control.setPriority (c : Control) (id : Nat) (p : Priority) : Option (Control × Bool) :=
  match c.streams id with
  | none => none
  | some h =>
    if (h.update p).2 then
      some ({ c.setStream id (h.update p).1 with outstanding := c.outstanding ++ [id] }, true)
    else some (c, false)

/-- `BufferedStream::send_buffer` (buffered_send_stream.rs:66-84); the transport takes `room`
bytes at most.  Also what room is left.  An error of the transport (the peer stopped the
stream, which closes the connection) is not modelled. -/
def Control.flush (c : Control) (room : Nat) : Control × Nat :=
  ({ c with out := c.out ++ c.buf.take room, buf := c.buf.drop room }, room - c.buf.length)

/-- `BufferedStream::send_atomic_with` (buffered_send_stream.rs:129-147) with
`prepare_atomic_send` (buffered_send_stream.rs:87-100). -/
def Control.sendAtomic (c : Control) (room : Nat) (bs : Bytes) : Control × Nat × Bool :=
  if (c.flush room).1.buf = [] then
    if bs.length ≤ (c.flush room).2 then
      ({ (c.flush room).1 with out := (c.flush room).1.out ++ bs }, (c.flush room).2 - bs.length, true)
    else ((c.flush room).1, (c.flush room).2, false)
  else ((c.flush room).1, (c.flush room).2, false)

/-- `ControlStreamLocal::send_priority_update` (control_stream_local.rs:56-90). -/
def Control.updates : List Nat → Nat → Control → Option Control
  | [], _, c => some { c with outstanding := [] }
  | id :: rest, room, c =>
    match c.streams id with
    | none => updates rest room c
    | some h =>
      match h.frame id with
      | none => updates rest room c
      | some f =>
        match Sent.encode displayPriority (.frame f) with
        | none => none
        | some bs =>
          if (c.sendAtomic room bs).2.2 then
            updates rest (c.sendAtomic room bs).2.1
              { (c.sendAtomic room bs).1.setStream id (some h.sent) with
                written := c.written ++ [.frame f] }
          else some { (c.sendAtomic room bs).1 with outstanding := id :: rest }

/-- `ControlStreamLocal::send` (control_stream_local.rs:46-54). -/
def Control.send (c : Control) (room : Nat) : Option Control :=
  Control.updates (c.flush room).1.outstanding (c.flush room).2 (c.flush room).1

/-- What happens at a client. -/
inductive CtlOp where
  /-- A request is made with a priority (connection.rs:974-991).  It does not reach the
  headers of the request (connection.rs:836-888). -/
  | fetch (id : Nat) (p : Priority)
  /-- The server opens a stream for a push (connection_client.rs:1073-1095). -/
  | pushStream (id pushId : Nat)
  /-- The receiving side of a stream is removed. -/
  | removed (id : Nat)
  | setPriority (id : Nat) (p : Priority)
  /-- Another frame goes to the control stream. -/
  | queue (s : Sent)
  | send (room : Nat)

def Control.step (c : Control) : CtlOp → Option Control
  | .fetch id p => some (c.setStream id (some (PrioHandler.new false p)))
  | .pushStream id _ => some (c.setStream id (some (PrioHandler.new true Priority.default)))
  | .removed id => some (c.setStream id none)
  | .setPriority id p => some (match c.setPriority id p with | none => c | some r => r.1)
  | .queue s => c.queueFrame s
  | .send room => c.send room

def Control.run (c : Control) : List CtlOp → Option Control
  | [] => some c
  | op :: ops =>
    match c.step op with
    | none => none
    | some c' => c'.run ops

end Neqo.H3

namespace Neqo.H3.Spec
open Neqo.Codec (Bytes)
open Neqo.H3

/-- The priority the application wants for a stream: the one of the request (for a push the
default), until it sets another one.  `none` when the stream is not open. -/
def wantedAfter (id : Nat) (w : Option Priority) : CtlOp → Option Priority
  | .fetch i p => if i = id then some p else w
  | .pushStream i _ => if i = id then some ⟨3, false⟩ else w
  | .removed i => if i = id then none else w
  | .setPriority i p => if i = id then w.map (fun _ => p) else w
  | _ => w

def wanted (ops : List CtlOp) (id : Nat) : Option Priority := ops.foldl (wantedAfter id) none

/-- The priority a stream had when it was opened. -/
def openedWith : List CtlOp → Nat → Option Priority
  | [], _ => none
  | .fetch i p :: ops, id => if i = id then some p else openedWith ops id
  | .pushStream i _ :: ops, id => if i = id then some ⟨3, false⟩ else openedWith ops id
  | _ :: ops, id => openedWith ops id

/-- The streams that are opened. -/
def opens : List CtlOp → List Nat
  | [] => []
  | .fetch i _ :: ops => i :: opens ops
  | .pushStream i _ :: ops => i :: opens ops
  | _ :: ops => opens ops

/-- The stream and priority of a PRIORITY_UPDATE frame. -/
def updateOf : Sent → Option (Nat × Priority)
  | .frame (.priorityUpdateRequest id p) => some (id, p)
  | .frame (.priorityUpdatePush id p) => some (id, p)
  | _ => none

/-- The priority that the last PRIORITY_UPDATE for a stream gave it; before the first one
`first`. -/
def told (first : Priority) (l : List Sent) (id : Nat) : Priority :=
  l.foldl (fun b s => match updateOf s with
    | some (i, p) => if i = id then p else b
    | none => b) first

/-- Priorities that exist, stream IDs that exist, and no priority updates among the other
frames. -/
def CtlOp.Ok : CtlOp → Prop
  | .fetch id p => id < 2 ^ 62 ∧ p.urgency < 8
  | .pushStream id _ => id < 2 ^ 62
  | .setPriority _ p => p.urgency < 8
  | .queue s => Sendable s ∧ updateOf s = none
  | _ => True

end Neqo.H3.Spec
