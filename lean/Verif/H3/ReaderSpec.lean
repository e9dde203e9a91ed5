import Verif.H3.Reader

/-!
# What reading frames means

The layout of RFC 9114 §7.1 (and of RFC 9297 §3.2 for capsules), read from the
whole byte string at once: a frame is a type and a length, both varints, and then
as many bytes as the length says.
-/
namespace Neqo.H3.Spec
open Neqo.Codec (Bytes decodeVarint)
open Neqo.H3 (Err Item End)

/-- What a frame type is to the protocol. -/
inductive Kind (T : Type) where
  /-- Must not be used: an error as soon as the type is known. -/
  | reserved
  /-- The payload is left to the reader's user; the frame only tells the length. -/
  | inline (mk : Nat → T)
  /-- The payload is read as a whole, if its length is within the limit. -/
  | whole (limit : Nat) (parse : Bytes → Except Err T)
  /-- Not known: skipped with its payload. -/
  | unknown

variable {T : Type}

/-- Where bytes end in the middle of a frame: wait, or, when the stream ended,
that is an error. -/
def cut (fin : Bool) : List (Item T) × End := ([], if fin then .failed .httpFrame else .more)

/-- Put items in front of the rest. -/
def also (is : List (Item T)) (x : List (Item T) × End) : List (Item T) × End := (is ++ x.1, x.2)

/-- The items in a byte string, after which the stream ends (`fin`) or not.
`fuel` bounds the number of frames (every frame has at least two bytes). -/
def frames (kind : Nat → Kind T) : Nat → Bytes → Bool → List (Item T) × End
  | 0, _, _ => ([], .failed .panic)
  | _ + 1, [], fin => ([], if fin then .finished else .more)
  | fuel + 1, b :: bs, fin =>
    match decodeVarint (b :: bs) with
    | none => cut fin
    | some (t, r1) =>
      match kind t with
      | .reserved => ([], .failed .httpFrameUnexpected)
      | k =>
        match decodeVarint r1 with
        | none => cut fin
        | some (len, r2) =>
          match k with
          | .inline mk =>
            also (.frame (mk len) :: (r2.take len).map .byte)
              (if r2.length < len then cut fin else frames kind fuel (r2.drop len) fin)
          | .whole limit parse =>
            if limit < len then ([], .failed .httpExcessiveLoad)
            else if r2.length < len then cut fin
            else match parse (r2.take len) with
              | .error e => ([], .failed e)
              | .ok f => also [.frame f] (frames kind fuel (r2.drop len) fin)
          | _ => if r2.length < len then cut fin else frames kind fuel (r2.drop len) fin

/-- The items in a byte string. -/
def read (kind : Nat → Kind T) (bs : Bytes) (fin : Bool) : List (Item T) × End :=
  frames kind (bs.length + 1) bs fin

end Neqo.H3.Spec
