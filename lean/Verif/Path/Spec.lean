import Verif.Path.Model

/-!
Histories of a connection's paths: what can happen, and what an observer has seen.
-/

namespace Neqo.Path

/-- The frames that matter. -/
inductive PFrame where
  /-- NEW_CONNECTION_ID with this entry and Retire Prior To. -/
  | newCid (e : Entry) (retirePrior : Nat)
  | challenge (data : Nat)
  | response (data : Nat)
  deriving DecidableEq, Repr

/-- What follows when the frames of a packet were processed. -/
inductive Fin where
  | nothing
  /-- A server gets a packet that proves the client's address: a Handshake packet, or one sent to
  a connection ID that the server chose. -/
  | handshake
  /-- The packet has the largest number so far and is not only probing. -/
  | app
  deriving DecidableEq, Repr

/-- What can happen. -/
inductive Ev where
  /-- The client makes its first path, or the server does on the first datagram, of `len` bytes. -/
  | start (loc rem mtu len : Nat) (cid : List Nat) (srt now : Nat)
  /-- A datagram arrives and its packets, if any, are processed. -/
  | recv (loc rem mtu len now : Nat) (frames : List PFrame) (fin : Fin)
  /-- The handshake completes. -/
  | connected (now : Nat)
  | timer (now pto : Nat)
  /-- The application of a client migrates. -/
  | migrate (loc rem mtu : Nat) (force : Bool) (now : Nat)
  /-- A packet is written, with `room` bytes for path probes; `data` is random. -/
  | write (room data : Nat) (full : Bool) (now : Nat)
  /-- A RETIRE_CONNECTION_ID frame is written, lost or acknowledged. -/
  | sendRetire
  | lostRetire (seq : Nat)
  | ackRetire (seq : Nat)
  /-- ECN validation moves on. -/
  | ecn (i : Nat) (e : Ecn)
  deriving DecidableEq, Repr

namespace Conn

/-- One frame of a packet that came on path `i` (connection/mod.rs:3455-3509). -/
def frame (c : Conn) (i now : Nat) : PFrame → Except Err Conn
  | .newCid e rp => c.newConnectionId e rp
  | .challenge d => c.pathChallenge i d
  | .response d => c.pathResponse d now

/-- All the frames of a packet (connection/mod.rs:1972-1995). -/
def frames (c : Conn) (i now : Nat) : List PFrame → Except Err Conn
  | [] => .ok c
  | f :: l => do
    let c ← c.frame i now f
    c.frames i now l

/-- `input` and `postprocess_packet` (connection/mod.rs:1799-1816, 1728-1795). -/
def recv (c : Conn) (loc rem mtu len now : Nat) (fs : List PFrame) (fin : Fin) : Except Err Conn := do
  let (c, i) := c.findPath loc rem mtu
  let c := c.modify i (fun p => { p with received := p.received + len })
  let c ← c.frames i now fs
  match fin with
  | .nothing => .ok c
  | .handshake => .ok (c.modify i (fun p => p.setValid now))
  | .app => c.handleMigration i now

/-- `set_connected` (connection/mod.rs:3728-3733). -/
def setConnected (c : Conn) (now : Nat) : Except Err Conn :=
  if c.client then .ok { c with connected := true }
  else
    match c.primary with
    | none => .error .noAvailablePath
    | some p => .ok { c.modify p (fun q => q.setValid now) with connected := true }

/-- The first path. -/
def start (c : Conn) (loc rem mtu len : Nat) (cid : List Nat) (srt now : Nat) : Except Err Conn := do
  let (c, i) := c.findPath loc rem mtu
  let c := c.modify i (fun p => { p with received := p.received + len })
  c.setupHandshakePath i cid srt now

/-- One event.  An error closes the connection, but for one of `migrate`. -/
def step (c : Conn) : Ev → Except Err Conn
  | .start loc rem mtu len cid srt now => c.start loc rem mtu len cid srt now
  | .recv loc rem mtu len now fs fin => c.recv loc rem mtu len now fs fin
  | .connected now => c.setConnected now
  | .timer now pto => c.processTimeout now pto
  | .migrate loc rem mtu force now =>
    match c.migrate loc rem mtu force now with
    | .ok c => .ok c
    | .error .panic => .error .panic
    | .error _ => .ok c
  | .write room data full now =>
    match c.selectPath with
    | none => .ok c
    | some i => .ok (c.modify i (fun p => (p.writeFrames room data full now).1))
  | .sendRetire => .ok { c with toRetire := c.toRetire.dropLast }
  | .lostRetire s => .ok { c with toRetire := c.toRetire ++ [s] }
  | .ackRetire s => .ok { c with toRetire := c.toRetire.filter (fun x => x ≠ s) }
  | .ecn i e => .ok (c.modify i (fun p => { p with ecn := e }))

end Conn

/-- What an observer has seen, newest first, by path where it is a function. -/
structure Seen where
  /-- PATH_CHALLENGE frames sent on a path. -/
  chal : Nat → List Nat
  /-- PATH_CHALLENGE frames received on a path. -/
  got : Nat → List Nat
  /-- PATH_RESPONSE frames sent on a path. -/
  resp : Nat → List Nat
  /-- Connection IDs the peer has given out, by sequence number, each time one was taken in. -/
  added : List Nat
  /-- Connection IDs given up, by sequence number, each time one was. -/
  retired : List Nat
  /-- RETIRE_CONNECTION_ID frames that were sent and not yet lost or acknowledged. -/
  out : List Nat
  /-- Connection IDs whose retirement the peer acknowledged. -/
  acked : List Nat

/-- Add to the list of one path. -/
def note (f : Nat → List Nat) (i : Nat) (d : List Nat) : Nat → List Nat :=
  fun j => if j = i then d ++ f j else f j

/-- The challenges in a packet, newest first. -/
def challenges : List PFrame → List Nat
  | [] => []
  | .challenge d :: l => challenges l ++ [d]
  | _ :: l => challenges l

/-- The sequence numbers that the frames of a packet make a connection take in: a NEW_CONNECTION_ID
frame does unless the same entry is waiting to be used. -/
def takenIn (c : Conn) (i now : Nat) : List PFrame → List Nat
  | [] => []
  | f :: l =>
    match c.frame i now f with
    | .error _ => []
    | .ok c' =>
      match f with
      | .newCid e _ =>
        if c.store.any (fun x => x = e) then takenIn c' i now l else e.seq :: takenIn c' i now l
      | _ => takenIn c' i now l

/-- A connection and what was seen of it. -/
structure Hist where
  c : Conn
  seen : Seen

namespace Hist

/-- Nothing has happened. -/
def init (client : Bool) : Hist :=
  { c := Conn.init client
    seen := { chal := fun _ => [], got := fun _ => [], resp := fun _ => [], added := [],
              retired := [], out := [], acked := [] } }

/-- What is seen of an event that takes `c` to `c'`. -/
def observe (c c' : Conn) (s : Seen) : Ev → Seen
  | .start _ _ _ _ cid _ _ =>
    { s with added := (if cid = [] then [] else [0]) ++ s.added
             retired := c'.toRetire.drop c.toRetire.length ++ s.retired }
  | .recv loc rem mtu len now fs _ =>
    let i := (c.findPath loc rem mtu).2
    let c0 := ((c.findPath loc rem mtu).1).modify i (fun p => { p with received := p.received + len })
    { s with got := note s.got i (challenges fs)
             added := takenIn c0 i now fs ++ s.added
             retired := c'.toRetire.drop c.toRetire.length ++ s.retired }
  | .timer _ _ | .migrate .. =>
    { s with retired := c'.toRetire.drop c.toRetire.length ++ s.retired }
  | .connected _ | .ecn _ _ => s
  | .write room data full now =>
    match c.selectPath with
    | none => s
    | some i =>
      let o := ((c.heap i).writeFrames room data full now).2
      { s with resp := note s.resp i o.1.toList, chal := note s.chal i o.2.toList }
  | .sendRetire => { s with out := c.toRetire.getLast?.toList ++ s.out }
  | .lostRetire q => { s with out := s.out.erase q }
  | .ackRetire q => { s with out := s.out.erase q, acked := q :: s.acked }

/-- One event. -/
def step (h : Hist) (e : Ev) : Except Err Hist :=
  match h.c.step e with
  | .error x => .error x
  | .ok c => .ok { c, seen := observe h.c c h.seen e }

/-- What the frame decoder lets through (neqo-transport/src/frame.rs:644-655). -/
def FrameOk : PFrame → Prop
  | .newCid e rp => rp ≤ e.seq ∧ e.cid ≠ [] ∧ e.seq < 2 ^ 62
  | _ => True

/-- What the rest of the connection guarantees: there is one start, before all else; the handshake
completes once and packets are handled by what state it is in; a RETIRE_CONNECTION_ID frame is lost
or acknowledged only if it was sent; ECN validation takes its steps. -/
def Legal (h : Hist) : Ev → Prop
  | .start .. => h.c.paths = [] ∧ h.seen.added = []
  | .recv _ _ _ _ _ fs fin =>
    h.c.paths ≠ [] ∧ (∀ f ∈ fs, FrameOk f) ∧
      match fin with
      | .nothing => True
      | .handshake => h.c.client = false ∧ h.c.connected = false
      | .app => h.c.connected = true
  | .connected _ => h.c.paths ≠ [] ∧ h.c.connected = false
  | .timer _ _ => h.c.paths ≠ []
  | .migrate .. => True
  | .write .. => h.c.connected = true
  | .sendRetire => True
  | .lostRetire q => q ∈ h.seen.out
  | .ackRetire q => q ∈ h.seen.out ∨ q ∈ h.c.toRetire
  | .ecn i e => i ∈ h.c.paths ∧ ((h.c.heap i).ecn).next e = true

/-- Why a path may become valid. -/
def Cause (h : Hist) (e : Ev) (j : Nat) : Prop :=
  match e with
  | .recv loc rem mtu _ _ fs fin =>
    -- The answer to the last challenge sent on it came,
    (∃ d, PFrame.response d ∈ fs ∧ (h.seen.chal j).head? = some d) ∨
    -- or a packet came on it that only the owner of the address can send;
    (fin = .handshake ∧ j = (h.c.findPath loc rem mtu).2)
  -- the handshake ends, which validates the client's address;
  | .connected _ => h.c.client = false ∧ h.c.primary = some j
  -- the client chose the address;
  | .start loc rem mtu .. => h.c.client = true ∧ j = (h.c.findPath loc rem mtu).2
  -- or the application of the client asks for it.
  | .migrate loc rem mtu force _ =>
    h.c.client = true ∧ force = true ∧ j = (h.c.findPath loc rem mtu).2
  | _ => False

/-- The histories that can be reached. -/
inductive Reached (client : Bool) : Hist → Prop where
  | init : Reached client (init client)
  | step {h h' : Hist} {e : Ev} : Reached client h → h.Legal e → h.step e = .ok h' →
      Reached client h'

end Hist

end Neqo.Path
