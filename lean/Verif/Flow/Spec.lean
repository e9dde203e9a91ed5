import Verif.Flow.Model

/-! # Histories of flow-control objects -/
namespace Neqo.Flow

/-! ## Sender: limits from the peer, blocking, sending and loss of blocked frames -/

inductive SOp where
  /-- MAX_DATA / MAX_STREAM_DATA / MAX_STREAMS received. -/
  | update (limit : Nat)
  /-- Credit used for `n` units, only ever up to what is available. -/
  | consume (n : Nat)
  /-- The sender found itself blocked. -/
  | blocked
  /-- An opportunity to write a blocked frame. -/
  | write (fits : Bool)
  /-- A blocked frame carrying `limit` was declared lost. -/
  | lost (limit : Nat)
  deriving Repr, DecidableEq

/-- One step; the second component is the limit carried by a blocked frame sent now. -/
def SFc.step (s : SFc) : SOp → SFc × Option Nat
  | .update l => ((s.update l).1, none)
  | .consume n =>
    match s.consume (min n s.available) with
    | .ok s' => (s', none)
    | .error _ => (s, none)
  | .blocked => (s.blocked, none)
  | .write fits => s.write fits
  | .lost l => (s.frameLost l, none)

def SFc.run (s : SFc) : List SOp → SFc
  | [] => s
  | op :: ops => (s.step op).1.run ops

/-- The largest limit given, counting the initial one. -/
def largestLimit (initial : Nat) : List SOp → Nat
  | [] => initial
  | .update l :: ops => largestLimit (max initial l) ops
  | _ :: ops => largestLimit initial ops

/-! ## Receiver -/

inductive ROp where
  /-- Data received, up to absolute offset / total `upTo`. -/
  | received (upTo : Nat)
  /-- `n` more units handed to the application (or abandoned). -/
  | retired (n : Nat)
  /-- The peer said it is blocked. -/
  | peerBlocked
  /-- The application changed the window. -/
  | setWindow (w : Nat)
  /-- An opportunity to write an update frame. -/
  | write (fits : Bool) (now rtt : Nat)
  /-- An update frame carrying `limit` was declared lost. -/
  | lost (limit : Nat)
  deriving Repr, DecidableEq

/-- One step of byte-counting receive flow control (streams and the connection). -/
def RFc.step (maxWindow : Nat) (s : RFc) : ROp → Except Err (RFc × Option Nat)
  | .received n => match s.setConsumed n with
    | .ok (s', _) => .ok (s', none)
    | .error e => .error e
  | .retired n => match s.addRetired n with
    | .ok s' => .ok (s', none)
    | .error e => .error e
  | .peerBlocked => .ok (s.sendFlowcUpdate, none)
  | .setWindow w => .ok (s.setMaxActive w, none)
  | .write fits now rtt => s.write fits now rtt maxWindow
  | .lost l => .ok (s.frameLost l, none)

/-- Run a history, collecting the limits advertised, in order. -/
def RFc.run (maxWindow : Nat) (s : RFc) : List ROp → Except Err (RFc × List Nat)
  | [] => .ok (s, [])
  | op :: ops =>
    match s.step maxWindow op with
    | .error e => .error e
    | .ok (s1, o) =>
      match s1.run maxWindow ops with
      | .error e => .error e
      | .ok (s2, os) => .ok (s2, o.toList ++ os)

/-- No window change in the history makes the window smaller than `w`, the window in
force (auto-tuning only ever raises it). -/
def NeverShrinks (maxWindow : Nat) : RFc → List ROp → Prop
  | _, [] => True
  | s, op :: ops =>
    (∀ w, op = .setWindow w → s.maxActive ≤ w) ∧
    (∀ s1 o, s.step maxWindow op = .ok (s1, o) → NeverShrinks maxWindow s1 ops)

/-- One step of stream-count flow control. -/
inductive CountOp where
  | retired (n : Nat)
  | peerBlocked
  | write (fits : Bool)
  | lost (limit : Nat)
  deriving Repr, DecidableEq

def RFc.countStep (s : RFc) : CountOp → RFc × Option Nat
  | .retired n => (s.addRetiredStreams n, none)
  | .peerBlocked => (s.sendFlowcUpdate, none)
  | .write fits => s.writeStreams fits
  | .lost l => (s.frameLost l, none)

def RFc.countRun (s : RFc) : List CountOp → RFc × List Nat
  | [] => (s, [])
  | op :: ops =>
    let r := (s.countStep op).1.countRun ops
    (r.1, (s.countStep op).2.toList ++ r.2)

end Neqo.Flow
