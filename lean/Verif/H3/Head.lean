import Verif.H3.ReaderLemmas
import Verif.H3.Frames

/-!
# The head of a stream: `neqo-http3/src/stream_type_reader.rs`
-/
namespace Neqo.H3
open Neqo.Codec

inductive Role where
  | client | server
  deriving Repr, DecidableEq

/-- `enum NewStreamType` (stream_type_reader.rs:23-32).  `decoder` and `encoder`
are the parts of QPACK that read the stream. -/
inductive StreamKind where
  | control | decoder | encoder | push (id : Nat) | webTransport (session : Nat) | http (frame : Nat)
  | unknown
  deriving Repr, DecidableEq

/-- The errors of the reader of stream heads.  All of them close the connection:
only `HttpGeneralProtocolStream` and `InvalidHeader` reset a stream instead
(lib.rs:332-334, connection.rs:811-835). -/
inductive HeadErr where
  | frameUnexpected | frame | streamCreation | closedCriticalStream | generalProtocol | panic
  deriving Repr, DecidableEq

/-- `NewStreamType::final_stream_type` (stream_type_reader.rs:43-74). -/
def finalStreamType (t : Nat) (bidi : Bool) (role : Role) : Except HeadErr (Option StreamKind) :=
  if t = 0x0 ∧ !bidi then .ok (some .control)
  else if t = 0x2 ∧ !bidi then .ok (some .decoder)
  else if t = 0x3 ∧ !bidi then .ok (some .encoder)
  else if (t = 0x1 ∧ !bidi ∧ role = .client) ∨ (t = 0x54 ∧ !bidi) ∨ (t = 0x41 ∧ bidi) then .ok none
  else if bidi ∧ role = .server then
    if t ∈ [0x2, 0x6, 0x8, 0x9] then .error .frameUnexpected
    else if hKnown t ∧ t ≠ 0x1 then .error .frame
    else .ok (some (.http t))
  else if (t = 0x1 ∧ !bidi ∧ role = .server) ∨ (bidi ∧ role = .client) then .error .streamCreation
  else .ok (some .unknown)

/-- `NewStreamHeadReader::map_stream_fin` (stream_type_reader.rs:204-216). -/
def mapStreamFin : Option StreamKind → Except HeadErr (Option StreamKind)
  | some .control | some .encoder | some .decoder => .error .closedCriticalStream
  | none => .error .streamCreation
  | some (.http _) => .error .frame
  | some .unknown => .ok (some .unknown)
  | some (.push _) | some (.webTransport _) => .error .panic

/-- `enum NewStreamHeadReader` (stream_type_reader.rs:86-98), without the stream ID
and role, which do not change. -/
inductive Head where
  | readType (d : IncUint)
  | readId (ty : Nat) (d : IncUint)
  | done
  deriving Repr, DecidableEq

/-- `NewStreamHeadReader::read` (stream_type_reader.rs:108-133) for one decoder.
`fuel` bounds the passes through the loop. -/
def headRead : Nat → IncUint → Bytes → Bool → Except HeadErr (IncUint × Bytes × Option Nat × Bool)
  | 0, _, _, _ => .error .panic
  | fuel + 1, d, avail, fin =>
    let n := min d.minRemaining 16
    let input := avail.take n
    let rest := avail.drop n
    let f := fin && decide (avail.length ≤ n)
    if input = [] then .ok (d, rest, none, f)
    else match d.consume input with
      | none => .error .panic
      | some (d', res, _) =>
        if res.isSome || f then .ok (d', rest, res, f)
        else headRead fuel d' rest fin

/-- The result of `get_type`: nothing yet, or the kind of the stream and what is
left on it. -/
inductive HeadOut where
  | wait (h : Head)
  | kind (k : StreamKind) (rest : Bytes)
  | failed (e : HeadErr)
  deriving Repr, DecidableEq

/-- `NewStreamHeadReader::get_type` (stream_type_reader.rs:137-192) when reading an
ID. -/
def headId (ty : Nat) (d : IncUint) (avail : Bytes) (fin : Bool) : HeadOut :=
  match headRead (avail.length + 1) d avail fin with
  | .error e => .failed e
  | .ok (d', _, none, f) => if f then .failed .streamCreation else .wait (.readId ty d')
  | .ok (_, rest, some id, f) =>
    if f then .failed .generalProtocol
    else .kind (if ty = 0x1 then .push id else .webTransport id) rest

/-- `NewStreamHeadReader::get_type` (stream_type_reader.rs:137-192) when reading the
type. -/
def headType (role : Role) (bidi : Bool) (d : IncUint) (avail : Bytes) (fin : Bool) : HeadOut :=
  match headRead (avail.length + 1) d avail fin with
  | .error e => .failed e
  | .ok (d', _, none, f) => if f then .failed .streamCreation else .wait (.readType d')
  | .ok (_, rest, some t, f) =>
    match finalStreamType t bidi role with
    | .error e => .failed e
    | .ok k =>
      if f then
        match mapStreamFin k with
        | .error e => .failed e
        | .ok (some k) => .kind k rest
        | .ok none => .wait .done
      else match k with
        | some k => .kind k rest
        | none => headId t {} rest fin

/-- `NewStreamHeadReader::get_type` (stream_type_reader.rs:137-192). -/
def Head.getType (role : Role) (bidi : Bool) (h : Head) (avail : Bytes) (fin : Bool) : HeadOut :=
  match h with
  | .readType d => headType role bidi d avail fin
  | .readId ty d => headId ty d avail fin
  | .done => .wait .done

/-- The data of a stream arrives in pieces; `fin` says whether the last piece ends
the stream.  The reader is asked after each piece until it knows. -/
def Head.feed (role : Role) (bidi : Bool) : Head → List Bytes → Bool → HeadOut
  | h, [], _ => .wait h
  | h, [c], fin => h.getType role bidi c fin
  | h, c :: cs, fin =>
    match h.getType role bidi c false with
    | .wait h' => h'.feed role bidi cs fin
    | .kind k rest => .kind k (rest ++ cs.flatten)
    | .failed e => .failed e

end Neqo.H3

namespace Neqo.H3.Spec
open Neqo.Codec (Bytes decodeVarint)
open Neqo.H3

/-- What a type says about a stream (RFC 9114 §6.2, RFC 9204 §4.2,
draft-ietf-webtrans-http3 §4; for a bidirectional stream it is a frame type). -/
inductive Meaning where
  | is (k : StreamKind)
  | withId (mk : Nat → StreamKind)
  | bad (e : HeadErr)

def uniMeaning (role : Role) (t : Nat) : Meaning :=
  match t with
  | 0x0 => .is .control
  | 0x1 => if role = .client then .withId .push else .bad .streamCreation
  | 0x2 => .is .decoder
  | 0x3 => .is .encoder
  | 0x54 => .withId .webTransport
  | _ => .is .unknown

def bidiMeaning (role : Role) (t : Nat) : Meaning :=
  match t with
  | 0x41 => .withId .webTransport
  | _ =>
    if role = .client then .bad .streamCreation
    else if t ∈ [0x2, 0x6, 0x8, 0x9] then .bad .frameUnexpected
    else if t ∈ [0x0, 0x3, 0x4, 0x5, 0x7, 0xd, 0xf0700, 0xf0701] then .bad .frame
    else .is (.http t)

def meaning (role : Role) (bidi : Bool) : Nat → Meaning :=
  if bidi then bidiMeaning role else uniMeaning role

/-- The outcome, as far as a user can see it. -/
inductive Outcome where
  | wait
  | kind (k : StreamKind) (rest : Bytes)
  | failed (e : HeadErr)
  deriving Repr, DecidableEq

/-- The head of a stream, read from all of its bytes, while the end of the stream
has not been seen. -/
def head (role : Role) (bidi : Bool) (bs : Bytes) : Outcome :=
  match decodeVarint bs with
  | none => .wait
  | some (t, r1) =>
    match meaning role bidi t with
    | .bad e => .failed e
    | .is k => .kind k r1
    | .withId mk =>
      match decodeVarint r1 with
      | none => .wait
      | some (id, r2) => .kind (mk id) r2

end Neqo.H3.Spec
