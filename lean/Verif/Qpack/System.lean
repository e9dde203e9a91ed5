import Verif.Qpack.Coder

/-!
# An encoder and a decoder

The two ends of a connection.  What each wrote to its stream arrives in order, in pieces of any size and after any
delay.  The header blocks of a stream are decoded in order, a block after one that waits for inserts is not touched
before that was decoded (neqo-http3/src/recv_message.rs:242-269, 308-348, 462-482), and those of different streams are
decoded in any order.  The one exception, a block without references after a push promise that waits, is left out.
-/
namespace Neqo.Qp
open Neqo.Codec

/-- A function with another value at one place. -/
def upd {α : Type} (f : Nat → α) (s : Nat) (v : α) : Nat → α := fun j => if j = s then v else f j

structure Sys where
  enc : Enc
  dec : Dec
  /-- What the encoder wrote and the decoder did not get yet. -/
  toDec : Bytes
  /-- The blocks of the streams that were not decoded, each with the fields that it was made of. -/
  queue : Nat → List (Bytes × List Field)
  /-- The receiver gave the stream up. -/
  cancelled : Nat → Bool
  /-- The field sections that were encoded for the streams. -/
  sent : Nat → List (List Field)
  /-- The field sections that were decoded. -/
  delivered : Nat → List (List Field)

/-- What the two ends were set up with. -/
structure Config where
  encMax : Nat
  tracked : Nat
  huff : Bool
  decMax : Nat
  decBlocked : Nat

def Sys.init (c : Config) : Sys :=
  ⟨Enc.new c.encMax c.tracked c.huff, Dec.new c.decMax c.decBlocked, [], fun _ => [], fun _ => false, fun _ => [], fun _ => []⟩

inductive Op where
  /-- The settings of the decoder reach the encoder (neqo-http3/src/connection.rs:1694-1699). -/
  | settings
  /-- The encoder gets its stream. -/
  | stream
  /-- The encoder sends a pending change of capacity. -/
  | updates (room : Nat)
  /-- A field section is encoded; the encoder's stream has room for so many bytes. -/
  | encode (room stream : Nat) (fields : List Field)
  /-- So many bytes reach the decoder. -/
  | toDecoder (n : Nat)
  /-- So many bytes reach the encoder. -/
  | toEncoder (n : Nat)
  /-- The decoder sends. -/
  | send
  /-- The next block of a stream is decoded. -/
  | decode (stream : Nat)
  /-- The receiver gives a stream up. -/
  | cancel (stream : Nat)

def Sys.step (S : Sys) : Op → Except Err Sys
  | .settings =>
    match S.enc.setMaxCapacity S.dec.maxTableSize with
    | .error x => .error x
    | .ok e =>
      match e.setMaxBlocked S.dec.maxBlocked with
      | .error x => .error x
      | .ok e => .ok { S with enc := e }
  | .stream =>
    match S.enc.addSendStream with
    | .error x => .error x
    | .ok e => .ok { S with enc := e }
  | .updates room =>
    match EncW.sendUpdates ⟨S.enc, room, []⟩ with
    | .error x => .error x
    | .ok (_, w) => .ok { S with enc := w.enc, toDec := S.toDec ++ w.out }
  | .encode room s fs =>
    match EncW.encode ⟨S.enc, room, []⟩ fs s with
    | .error x => .error x
    | .ok (b, w) =>
      .ok { S with
        enc := w.enc
        toDec := S.toDec ++ w.out
        queue := upd S.queue s (S.queue s ++ [(b, fs)])
        sent := upd S.sent s (S.sent s ++ [fs]) }
  | .toDecoder n =>
    match S.dec.receive (S.toDec.take n) with
    | .error x => .error x
    | .ok (_, d) => .ok { S with dec := d, toDec := S.toDec.drop n }
  | .toEncoder n =>
    match S.enc.receive (S.dec.sendBuf.take n) with
    | .error x => .error x
    | .ok e => .ok { S with enc := e, dec := { S.dec with sendBuf := S.dec.sendBuf.drop n } }
  | .send =>
    match S.dec.send with
    | .error x => .error x
    | .ok d => .ok { S with dec := d }
  | .decode s =>
    if S.cancelled s then .ok S
    else
      match S.queue s with
      | [] => .ok S
      | b :: rest =>
        match S.dec.decode b.1 s with
        | .error x => .error x
        | .ok (none, d) => .ok { S with dec := d }
        | .ok (some fs, d) =>
          .ok { S with dec := d, queue := upd S.queue s rest, delivered := upd S.delivered s (S.delivered s ++ [fs]) }
  | .cancel s => .ok { S with dec := S.dec.cancelStream s, cancelled := upd S.cancelled s true }

end Neqo.Qp
