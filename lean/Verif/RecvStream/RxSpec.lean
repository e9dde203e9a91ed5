import Verif.RecvStream.RxModel

/-!
# Specification of in-order delivery

Histories of the reassembly buffer: STREAM/CRYPTO frames arriving in any order,
with any overlap, interleaved with reads of any size.  Nothing here mentions how
the buffer stores ranges.
-/
namespace Neqo.Recv
open Neqo.Codec (Bytes)

/-- One event at the reassembly buffer. -/
inductive Op where
  | frame (off : Nat) (data : Bytes)
  | read (n : Nat)
  deriving Repr, DecidableEq

/-- The buffer together with everything delivered to the application so far. -/
abbrev St := Rx × Bytes

def step (st : St) : Op → Except Err St
  | .frame off data =>
    match st.1.inboundFrame off data with
    | .ok s => .ok (s, st.2)
    | .error e => .error e
  | .read n =>
    match st.1.read n with
    | .ok (s, out) => .ok (s, st.2 ++ out)
    | .error e => .error e

def run (st : St) : List Op → Except Err St
  | [] => .ok st
  | op :: ops =>
    match step st op with
    | .ok st' => run st' ops
    | .error e => .error e

/-- Some frame of the history carried byte `b` at offset `i`. -/
def Carried (ops : List Op) (i : Nat) (b : UInt8) : Prop :=
  ∃ off data, Op.frame off data ∈ ops ∧ off ≤ i ∧ data[i - off]? = some b

/-- Some frame of the history carried a byte at offset `i`. -/
def Arrived (ops : List Op) (i : Nat) : Prop := ∃ b, Carried ops i b

/-- The peer follows the protocol: every frame carries bytes of one stream `f`. -/
def Consistent (f : Nat → UInt8) (ops : List Op) : Prop :=
  ∀ i b, Carried ops i b → b = f i

/-- Every frame of the history ends within `w` bytes of what has been delivered
when it arrives (that is what the receiver's flow control enforces). -/
def Windowed (w : Nat) : St → List Op → Prop
  | _, [] => True
  | st, op :: ops =>
    (∀ off data, op = .frame off data → off + data.length ≤ st.2.length + w) ∧
    (∀ st', step st op = .ok st' → Windowed w st' ops)

end Neqo.Recv
