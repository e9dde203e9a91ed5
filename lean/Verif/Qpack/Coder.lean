import Verif.Qpack.Header
import Verif.Qpack.Instr

/-!
# The encoder and the decoder (neqo-qpack/src/encoder.rs, decoder.rs)

The bytes that the two send to each other on their streams are explicit.  The type of a stream, which is its first
byte, is read by the HTTP/3 layer and is not among them.  Statistics and logs are left out.
-/
namespace Neqo.Qp
open Neqo.Codec

/-! ## The decoder -/

/-- `Decoder` (decoder.rs:25-36).  `sendBuf` is all that was written to the send buffer. -/
structure Dec where
  reader : EncR
  table : Table
  ackedInserts : Nat
  maxEntries : Nat
  sendBuf : Bytes
  maxTableSize : Nat
  maxBlocked : Nat
  blocked : List (Nat × Nat)
deriving DecidableEq, Repr

/-- `Decoder::new` (decoder.rs:43-60). -/
def Dec.new (maxTableSize maxBlocked : Nat) : Dec :=
  ⟨.start, Table.new false, 0, maxTableSize >>> 5, [], maxTableSize, maxBlocked, []⟩

/-- An insertion by an instruction: all errors, and a table without space, become the same error (decoder.rs:106-132). -/
def insertResult (r : Except Err (Option Nat × Table)) : Except Err Table :=
  match r with
  | .ok (some _, t) => .ok t
  | .ok (none, _) => .error .encoderStream
  | .error .panic => .error .panic
  | .error _ => .error .encoderStream

/-- `execute_instruction` (decoder.rs:104-137) and `set_capacity` (decoder.rs:139-145), the table only. -/
def execTable (maxTableSize : Nat) (t : Table) : EncInstr → Except Err Table
  | .capacity v =>
    if v > maxTableSize then .error .encoderStream
    else match t.setCapacity v with
      | .error e => .error e
      | .ok (true, t) => .ok t
      | .ok (false, _) => .error .changeCapacity
  | .insertStatic i v => insertResult (t.insertWithNameRef true i v)
  | .insertDynamic i v => insertResult (t.insertWithNameRef false i v)
  | .insertLiteral n v => insertResult (t.insert n v)
  | .duplicate i => insertResult (t.duplicate i)

/-- `receive` (decoder.rs:73-87): bytes of the encoder's stream have arrived; the streams that are not blocked any
more. -/
def Dec.receive (d : Dec) (bs : Bytes) : Except Err (List Nat × Dec) :=
  match process EncR.read (execTable d.maxTableSize) d.table d.reader bs with
  | .error .panic => .error .panic
  | .error _ => .error .encoderStream
  | .ok (t, r) =>
    if t.base = d.table.base then .ok ([], { d with table := t, reader := r })
    else
      .ok ((d.blocked.filter (fun x => x.2 ≤ t.base)).map Prod.fst,
        { d with table := t, reader := r, blocked := d.blocked.filter (fun x => ¬ x.2 ≤ t.base) })

/-- `header_ack` (decoder.rs:147-152). -/
def Dec.headerAck (d : Dec) (stream req : Nat) : Dec :=
  { d with sendBuf := d.sendBuf ++ (DecInstr.headerAck stream).marshal, ackedInserts := max d.ackedInserts req }

/-- `cancel_stream` (decoder.rs:154-159). -/
def Dec.cancelStream (d : Dec) (stream : Nat) : Dec :=
  if d.table.capacity > 0 then
    { d with
      blocked := d.blocked.filter (fun x => x.1 ≠ stream)
      sendBuf := d.sendBuf ++ (DecInstr.cancel stream).marshal }
  else d

/-- `send` (decoder.rs:169-187), without the sending itself. -/
def Dec.send (d : Dec) : Except Err Dec :=
  if d.table.base < d.ackedInserts then .error .panic
  else
    let n := d.table.base - d.ackedInserts
    if n > 0 then .ok { d with sendBuf := d.sendBuf ++ (DecInstr.increment n).marshal, ackedInserts := d.table.base }
    else .ok d

/-- `decode_header_block` (decoder.rs:206-241). -/
def Dec.decode (d : Dec) (buf : Bytes) (stream : Nat) : Except Err (Option (List Field) × Dec) :=
  match decodeBlock d.table d.maxEntries buf with
  | .error .panic => .error .panic
  | .error _ => .error .decompression
  | .ok (.blocked req) =>
    if d.blocked.any (fun x => x.1 = stream) then .ok (none, d)
    else if d.blocked.length ≥ d.maxBlocked then .error .decompression
    else .ok (none, { d with blocked := d.blocked ++ [(stream, req)] })
  | .ok (.headers req fs) => .ok (some fs, if req ≠ 0 then d.headerAck stream req else d)

/-! ## The encoder -/

/-- `LocalStreamState` (encoder.rs:32-36). -/
inductive LocalStream where
  | noStream
  | uninitialized
  | initialized
deriving DecidableEq, Repr

/-- The header blocks that were not acknowledged: for a stream, in the order in which they were sent, the entries that
each refers to (encoder.rs:58-62). -/
abbrev Unacked := List (Nat × List (List Nat))

/-- The blocks of a stream. -/
def Unacked.get (u : Unacked) (s : Nat) : List (List Nat) :=
  match u.find? (fun x => x.1 = s) with
  | some x => x.2
  | none => []

/-- The stream is there. -/
def Unacked.has (u : Unacked) (s : Nat) : Bool := u.any (fun x => x.1 = s)

/-- The stream is removed. -/
def Unacked.remove (u : Unacked) (s : Nat) : Unacked := u.filter (fun x => x.1 ≠ s)

/-- The blocks of a stream that is there are replaced. -/
def Unacked.set (u : Unacked) (s : Nat) (l : List (List Nat)) : Unacked := u.map (fun x => if x.1 = s then (s, l) else x)

/-- A block is added (encoder.rs:517-522). -/
def Unacked.push (u : Unacked) (s : Nat) (b : List Nat) : Unacked :=
  if u.has s then u.set s (u.get s ++ [b]) else u ++ [(s, [b])]

/-- `Encoder` (encoder.rs:48-67). -/
structure Enc where
  table : Table
  maxTableSize : Nat
  maxEntries : Nat
  reader : DecR
  stream : LocalStream
  maxBlocked : Nat
  maxTracked : Nat
  unacked : Unacked
  blockedCnt : Nat
  huff : Bool
  nextCapacity : Option Nat
deriving DecidableEq, Repr

/-- `Encoder::new` (encoder.rs:71-86). -/
def Enc.new (maxTableSize maxTracked : Nat) (huff : Bool) : Enc :=
  ⟨Table.new true, maxTableSize, 0, .start, .noStream, 0, maxTracked, [], 0, huff, none⟩

/-- `set_max_capacity` (encoder.rs:95-114). -/
def Enc.setMaxCapacity (e : Enc) (cap : Nat) : Except Err Enc :=
  if cap > 2 ^ 30 - 1 then .error .encoderStream
  else if cap = e.table.capacity then .ok e
  else .ok { e with nextCapacity := some (min e.maxTableSize cap) }

/-- `set_max_blocked_streams` (encoder.rs:122-125). -/
def Enc.setMaxBlocked (e : Enc) (n : Nat) : Except Err Enc :=
  if n < 2 ^ 16 then .ok { e with maxBlocked := n } else .error .encoderStream

/-- `add_send_stream` (encoder.rs:531-537). -/
def Enc.addSendStream (e : Enc) : Except Err Enc :=
  if e.stream = .noStream then .ok { e with stream := .uninitialized } else .error .panic

/-- `get_acked_inserts_cnt` (table.rs:396-398); the table of an encoder has it. -/
def Enc.acked (e : Enc) : Nat := e.table.acked.getD 0

/-- Blocks refer to an entry that was not acknowledged (encoder.rs:162, 398-401). -/
def blocking (acked : Nat) (l : List (List Nat)) : Bool := l.any (fun b => b.any (fun i => acked ≤ i))

/-- `recalculate_blocked_streams` (encoder.rs:155-168).  The counter is a `u16`; no more streams can block than
`max_blocked_streams`, which is one, too. -/
def Enc.recalculate (e : Enc) : Enc := { e with blockedCnt := (e.unacked.filter (fun x => blocking e.acked x.2)).length }

/-- `insert_count_instruction` (encoder.rs:170-176). -/
def Enc.insertCount (e : Enc) (n : Nat) : Except Err Enc :=
  match e.table.incrementAcked n with
  | .error _ => .error .decoderStream
  | .ok t => .ok (Enc.recalculate { e with table := t })

/-- References are given up (encoder.rs:195, 226). -/
def removeRefs (t : Table) : List Nat → Except Err Table
  | [] => .ok t
  | i :: is =>
    match t.removeRef i with
    | .error e => .error e
    | .ok t => removeRefs t is

/-- `header_ack` (encoder.rs:178-212). -/
def Enc.headerAck (e : Enc) (s : Nat) : Except Err Enc :=
  if e.unacked.has s then
    match e.unacked.get s with
    | [] => .error .panic
    | refs :: rest =>
      match removeRefs e.table refs with
      | .error x => .error x
      | .ok t =>
        let newAcked := refs.foldl (fun a i => if a ≤ i then i + 1 else a) e.acked
        let e' := { e with table := t, unacked := if rest = [] then e.unacked.remove s else e.unacked.set s rest }
        if e.acked < newAcked then e'.insertCount (newAcked - e.acked) else .ok e'
  else .error .decoderStream

/-- `stream_cancellation` (encoder.rs:214-234). -/
def Enc.cancelled (e : Enc) (s : Nat) : Except Err Enc :=
  let l := e.unacked.get s
  match removeRefs e.table l.flatten with
  | .error x => .error x
  | .ok t =>
    let e' := { e with table := t, unacked := e.unacked.remove s }
    if blocking e.acked l then
      if e.blockedCnt = 0 then .error .panic else .ok { e' with blockedCnt := e.blockedCnt - 1 }
    else .ok e'

/-- `call_instruction` (encoder.rs:236-267). -/
def Enc.exec (e : Enc) : DecInstr → Except Err Enc
  | .increment n => if n = 0 then .error .decoderStream else e.insertCount n
  | .headerAck s => e.headerAck s
  | .cancel s => e.cancelled s

/-- `receive` (encoder.rs:133-136): bytes of the decoder's stream have arrived. -/
def Enc.receive (e : Enc) (bs : Bytes) : Except Err Enc :=
  match process DecR.read Enc.exec e e.reader bs with
  | .error .panic => .error .panic
  | .error _ => .error .decoderStream
  | .ok (e, r) => .ok { e with reader := r }

/-- An encoder that writes to its stream: the flow control has room for a number of bytes, and what was written.
A closed stream has no room. -/
structure EncW where
  enc : Enc
  room : Nat
  out : Bytes
deriving DecidableEq, Repr

/-- `stream_send_atomic`: all or nothing. -/
def EncW.write (w : EncW) (b : Bytes) : Option EncW :=
  if b.length ≤ w.room then some { w with room := w.room - b.length, out := w.out ++ b } else none

/-- `send_and_insert` (encoder.rs:284-320): the index of the new entry, or `none` for an error. -/
def EncW.sendAndInsert (w : EncW) (name value : Bytes) : Except Err (Option Nat × EncW) :=
  match w.enc.table.insertPossible (name.length + value.length + entryOverhead) with
  | .error x => .error x
  | .ok false => .ok (none, w)
  | .ok true =>
    match (EncInstr.insertLiteral name value).marshal w.enc.huff with
    | .error x => .error x
    | .ok b =>
      if w.enc.stream = .noStream then .ok (none, w)
      else
        match w.write b with
        | none => .ok (none, w)
        | some w =>
          match w.enc.table.insert name value with
          | .error x => .error x
          | .ok (none, _) => .error .panic
          | .ok (some i, t) => .ok (some i, { w with enc := { w.enc with table := t } })

/-- `maybe_send_change_capacity` (encoder.rs:327-354): whether there was no error. -/
def EncW.maybeCapacity (w : EncW) : Except Err (Bool × EncW) :=
  match w.enc.nextCapacity with
  | none => .ok (true, w)
  | some cap =>
    match (if cap < w.enc.table.capacity then w.enc.table.canEvictTo cap else .ok true) with
    | .error x => .error x
    | .ok false => .ok (false, w)
    | .ok true =>
      match w.write (encodeInt encoderCapacity cap) with
      | none => .ok (false, w)
      | some w =>
        match w.enc.table.setCapacity cap with
        | .error x => .error x
        | .ok (false, _) => .error .panic
        | .ok (true, t) =>
          .ok (true, { w with enc := { w.enc with table := t, maxEntries := cap / 32, nextCapacity := none } })

/-- `send_encoder_updates` (encoder.rs:361-380).  The type of the stream is one byte; it counts for flow control. -/
def EncW.sendUpdates (w : EncW) : Except Err (Bool × EncW) :=
  match w.enc.stream with
  | .noStream => .ok (true, w)
  | .uninitialized =>
    if 1 ≤ w.room then
      EncW.maybeCapacity { w with enc := { w.enc with stream := .initialized }, room := w.room - 1 }
    else .ok (false, w)
  | .initialized => w.maybeCapacity

/-- `is_stream_blocker` (encoder.rs:382-392). -/
def Enc.isBlocker (e : Enc) (s : Nat) : Bool := blocking e.acked (e.unacked.get s)

/-- The state of the loop of `encode_header_block`. -/
structure Loop where
  w : EncW
  h : HEnc
  refs : List Nat
  blocked : Bool
deriving DecidableEq, Repr

/-- A reference to an entry of the dynamic table, counted once for a block (encoder.rs:475-477). -/
def Loop.ref (l : Loop) (i : Nat) : Except Err Loop :=
  if i ∈ l.refs then .ok l
  else
    match l.w.enc.table.addRef i with
    | .error x => .error x
    | .ok t => .ok { l with w := { l.w with enc := { l.w.enc with table := t } }, refs := l.refs ++ [i] }

/-- The field is written as literals. -/
def Loop.literal (l : Loop) (f : Field) : Except Err Loop :=
  match l.h.literalNameLiteral f.1 f.2 with
  | .error x => .error x
  | .ok h => .ok { l with h := h }

/-- A round of the loop (encoder.rs:449-509). -/
def Loop.field (canTrack canBlock : Bool) (l : Loop) (f : Field) : Except Err Loop :=
  match (if canTrack then l.w.enc.table.lookup f.1 f.2 canBlock else staticLookup f.1 f.2) with
  | some r =>
    match (if r.valueMatches then
        .ok (if r.isStatic then l.h.indexedStatic r.index else l.h.indexedDynamic r.index)
      else l.h.literalNameRef r.isStatic r.index f.2) with
    | .error x => .error x
    | .ok h => if r.isStatic then .ok { l with h := h } else Loop.ref { l with h := h } r.index
  | none =>
    if canBlock && !l.blocked then
      match l.w.sendAndInsert f.1 f.2 with
      | .error x => .error x
      | .ok (some i, w) => Loop.ref { l with w := w, h := l.h.indexedDynamic i } i
      | .ok (none, w) => Loop.literal { l with w := w, blocked := true } f
    else l.literal f

/-- The loop. -/
def Loop.fields (canTrack canBlock : Bool) (l : Loop) : List Field → Except Err Loop
  | [] => .ok l
  | f :: fs =>
    match l.field canTrack canBlock f with
    | .error x => .error x
    | .ok l => l.fields canTrack canBlock fs

/-- `encode_header_block` (encoder.rs:404-524): the block, and the encoder with what it wrote to its stream. -/
def EncW.encode (w : EncW) (h : List Field) (stream : Nat) : Except Err (Bytes × EncW) :=
  match w.sendUpdates with
  | .error x => .error x
  | .ok (ok, w) =>
    let wasBlocking := w.enc.isBlocker stream
    let canTrack := wasBlocking || w.enc.unacked.has stream || decide (w.enc.unacked.length < w.enc.maxTracked)
    let canBlock := wasBlocking || (canTrack && decide (w.enc.blockedCnt < w.enc.maxBlocked))
    match Loop.fields canTrack canBlock ⟨w, HEnc.new w.enc.table.base w.enc.huff w.enc.maxEntries, [], !ok⟩ h with
    | .error x => .error x
    | .ok l =>
      match l.h.finish with
      | .error x => .error x
      | .ok b =>
        let e := l.w.enc
        if !wasBlocking && l.refs.any (fun i => e.acked ≤ i) then
          if e.blockedCnt ≤ e.maxBlocked then
            .ok (b, { l.w with enc := { e with
              blockedCnt := e.blockedCnt + 1
              unacked := e.unacked.push stream l.refs } })
          else .error .panic
        else
          .ok (b, { l.w with enc := { e with unacked := if l.refs = [] then e.unacked else e.unacked.push stream l.refs } })

end Neqo.Qp
