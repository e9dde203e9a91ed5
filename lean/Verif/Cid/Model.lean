import Verif.Path.Model
import Verif.Codec.Model

/-!
Model of the connection IDs that an endpoint gives to its peer
(neqo-transport/src/cid.rs:440-637, `ConnectionIdManager`).

The generator of connection IDs is a list of its answers.  `lost_new_connection_id` is a list with
its top first.  Stateless reset tokens are numbers.
-/

namespace Neqo.Cid

open Neqo.Path (Entry)

/-- What can go wrong.  `running`: the loop goes on when the generator's answers run out. -/
inductive Err where
  | panic
  | protocolViolation
  | exhausted
  | running
  deriving DecidableEq, Repr

/-- `SEQNO_ODCID` (cid.rs:466). -/
def seqOdcid : Nat := 2 ^ 64 - 1

/-- `ConnectionIdEntry<()>` (cid.rs:243-253). -/
structure LEntry where
  seq : Nat
  cid : List Nat
  deriving DecidableEq, Repr

/-- `ConnectionIdManager` (cid.rs:440-455); `emptyCids` is what the generator says of itself. -/
structure Mgr where
  ids : List LEntry
  limit : Nat
  next : Nat
  lost : List Entry
  emptyCids : Bool
  deriving DecidableEq, Repr

namespace Mgr

/-- `new` (cid.rs:473-490). -/
def new (initial : List Nat) (emptyCids : Bool) : Mgr :=
  { ids := [⟨0, initial⟩], limit := 2, next := 1, lost := [], emptyCids }

/-- `preferred_address_cid` (cid.rs:503-521). -/
def preferred (m : Mgr) (answer : Option (List Nat)) : Except Err Mgr :=
  if m.emptyCids then .error .exhausted
  else
    match answer with
    | none => .error .exhausted
    | some cid =>
      if cid = [] ∨ m.next ≠ 1 then .error .panic
      else .ok { m with ids := m.ids ++ [⟨m.next, cid⟩], next := m.next + 1 }

/-- `is_valid` (cid.rs:523-525). -/
def isValid (m : Mgr) (cid : List Nat) : Bool := m.ids.any (fun e => e.cid = cid)

/-- `retire` (cid.rs:527-550). -/
def retire (m : Mgr) (seq : Nat) : Except Err Mgr :=
  if m.next ≤ seq then .error .protocolViolation
  else if seq = Neqo.Path.seqEmpty ∨ m.ids.any (fun e => e.seq = seq && e.cid = []) then .ok m
  else .ok { m with ids := m.ids.filter (fun e => e.seq ≠ seq)
                    lost := m.lost.filter (fun e => e.seq ≠ seq) }

/-- `add_odcid` (cid.rs:556-559). -/
def addOdcid (m : Mgr) (cid : List Nat) : Mgr := { m with ids := m.ids ++ [⟨seqOdcid, cid⟩] }

/-- `remove_odcid` (cid.rs:562-564). -/
def removeOdcid (m : Mgr) : Mgr := { m with ids := m.ids.filter (fun e => e.seq ≠ seqOdcid) }

/-- `set_limit` (cid.rs:566-570). -/
def setLimit (m : Mgr) (n : Nat) : Except Err Mgr :=
  if n < 2 then .error .panic else .ok { m with limit := min Neqo.Path.activeLimit n }

end Mgr

/-- The length of a NEW_CONNECTION_ID frame (cid.rs:287-307); none is a panic. -/
def size (e : Entry) : Option Nat :=
  (Neqo.Codec.varintLen e.seq).map (fun n => 1 + n + 1 + 1 + e.cid.length + 16)

/-- The first loop of `write_frames` (cid.rs:592-601): the frames written, the room left and the
entries left. -/
def writeLost (room : Nat) : List Entry → Except Err (List Entry × Nat × List Entry)
  | [] => .ok ([], room, [])
  | e :: l =>
    match size e with
    | none => .error .panic
    | some n =>
      if room < n then .ok ([], room, e :: l)
      else
        match writeLost (room - n) l with
        | .error x => .error x
        | .ok (w, r, k) => .ok (e :: w, r, k)

/-- What the second loop of `write_frames` makes: frames, tokens and the new state. -/
structure Written where
  frames : List Entry
  tokens : List Entry
  mgr : Mgr
  deriving DecidableEq, Repr

/-- The second loop of `write_frames` (cid.rs:572-618). -/
def writeNew (m : Mgr) (room : Nat) : List (Option (List Nat × Nat)) → Except Err Written
  | [] => if m.ids.length < m.limit ∧ 47 ≤ room then .error .running else .ok ⟨[], [], m⟩
  | a :: l =>
    if m.ids.length < m.limit ∧ 47 ≤ room then
      match a with
      | none => writeNew m room l
      | some (cid, srt) =>
        if cid = [] then .error .panic
        else
          match size ⟨m.next, cid, srt⟩ with
          | none => .error .panic
          | some n =>
            match writeNew { m with ids := m.ids ++ [⟨m.next, cid⟩], next := m.next + 1 }
                (if room < n then room else room - n) l with
            | .error x => .error x
            | .ok w =>
              .ok ⟨(if room < n then [] else [⟨m.next, cid, srt⟩]) ++ w.frames,
                ⟨m.next, cid, srt⟩ :: w.tokens, w.mgr⟩
    else .ok ⟨[], [], m⟩

namespace Mgr

/-- `write_frames` (cid.rs:572-618), with `room` bytes left in the packet. -/
def writeFrames (m : Mgr) (room : Nat) (gen : List (Option (List Nat × Nat))) :
    Except Err Written :=
  if m.emptyCids then .ok ⟨[], [], m⟩
  else
    match writeLost room m.lost with
    | .error x => .error x
    | .ok (w, r, k) =>
      match writeNew { m with lost := k } r gen with
      | .error x => .error x
      | .ok v => .ok ⟨w ++ v.frames, w ++ v.tokens, v.mgr⟩

/-- `lost` (cid.rs:620-622). -/
def onLost (m : Mgr) (e : Entry) : Mgr := { m with lost := e :: m.lost }

/-- `acked` (cid.rs:624-627). -/
def onAcked (m : Mgr) (e : Entry) : Mgr :=
  { m with lost := m.lost.filter (fun x => x.seq ≠ e.seq) }

end Mgr

end Neqo.Cid
