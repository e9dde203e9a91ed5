import Verif.Streams.Model
import Verif.Sched.Whole

/-!
What the properties of the streams of a connection talk about: histories of steps with what the peer
and the application saw of each.
-/

namespace Neqo.Strs

open Neqo.Flow (SFc RFc)
open Neqo.Sched (Writer Sched imFind)

variable {σ γ : Type}

/-- The steps and what was seen of each, latest first. -/
abbrev History (σ γ : Type) := List (Op σ γ × List Out)

/-- The two lowest bits of stream IDs (RFC 9000, section 2.1). -/
def bits : SType → Role → Nat
  | .bidi, .client => 0
  | .bidi, .server => 1
  | .uni, .client => 2
  | .uni, .server => 3

/-- The ID of the stream with index `n` of a type and initiator. -/
def nth (t : SType) (r : Role) (n : Nat) : Nat := 4 * n + bits t r

/-- The first `n` stream IDs of a type and initiator. -/
def firstIds (t : SType) (r : Role) (n : Nat) : List Nat := (List.range n).map (nth t r)

/-- The ID of a stream created with type `t`. -/
def createdId (t : SType) : Out → Option Nat
  | .created t' id => if t' = t then some id else none
  | _ => none

/-- The streams of type `t` that the application created, in order.  Those from before 0-RTT was
rejected are forgotten. -/
def created (t : SType) : History σ γ → List Nat
  | [] => []
  | (.rejected, _) :: _ => []
  | (_, os) :: h => created t h ++ os.filterMap (createdId t)

/-- The ID of a stream of type `t` that the application was told of. -/
def openedId (t : SType) : Out → Option Nat
  | .opened id => if id / 2 % 2 = (match t with | .bidi => 0 | .uni => 1) then some id else none
  | _ => none

/-- The streams of type `t` of the peer that the application was told of, in order. -/
def opened (t : SType) : History σ γ → List Nat
  | [] => []
  | (_, os) :: h => opened t h ++ os.filterMap (openedId t)

/-- How many streams of type `t` the peer allows with one step. -/
def grant (t : SType) : Op σ γ → Nat
  | .frame (.maxStreams t' m) => if t' = t then m else 0
  | .limits p => match t with
    | .bidi => p.maxBidi
    | .uni => p.maxUni
  | _ => 0

/-- How many streams of type `t` the peer allows.  What it allowed before it rejected 0-RTT is
forgotten. -/
def granted (t : SType) : History σ γ → Nat
  | [] => 0
  | (.rejected, _) :: _ => 0
  | (op, _) :: h => max (granted t h) (grant t op)

/-- The limit in a MAX_STREAMS frame. -/
def sentMax (t : SType) : Out → Option Nat
  | .maxStreams t' m => if t' = t then some m else none
  | _ => none

/-- The limit on streams of type `t` in our transport parameters. -/
def Cfg.streams (c : Cfg) : SType → Nat
  | .bidi => c.maxBidi
  | .uni => c.maxUni

/-- How many streams of type `t` the peer was last told it may open. -/
def advertised (c : Cfg) (t : SType) : History σ γ → Nat
  | [] => c.streams t
  | (_, os) :: h => ((os.filterMap (sentMax t)).getLast?).getD (advertised c t h)

/-- The streams of type `t` of the peer that are not closed and cleaned up: those whose receiving part
is in the table. -/
def live (t : SType) (s : State σ) : List Nat :=
  (s.recv.map (·.1)).filter (fun id => isRemote s.role id && decide (typeOf id = t))

/-- Limits in our transport parameters are variable-length integers. -/
structure Cfg.Ok (c : Cfg) : Prop where
  data : c.maxData ≤ 2 ^ 62 - 1
  bidiLocal : c.bidiLocal ≤ 2 ^ 62 - 1
  bidiRemote : c.bidiRemote ≤ 2 ^ 62 - 1
  uni : c.uni ≤ 2 ^ 62 - 1
  streams : ∀ t, c.streams t ≤ 2 ^ 60

/-- What is asked of send streams: they write as the scheduler expects, do not end by writing, being
new or getting a higher limit. -/
structure KindOk (K : Kind σ γ) : Prop where
  writer : Sched.WriterOk K.w
  ends : Sched.WriterEnds K.w
  new : ∀ id l, K.w.ended (K.new id l) = false
  setMax : ∀ l st, K.w.ended (K.setMax l st) = K.w.ended st

/-- What callers keep to. -/
def Op.Allowed (s : State σ) (h : History σ γ) : Op σ γ → Prop
  /- Frames are handled once the peer's transport parameters are known. -/
  | .frame _ => s.peer.isSome = true
  /- Frames arrive as frames; the application does not shrink a stream's receive window. -/
  | .recv id op => match op with
    | .frame .. => False
    | .reset .. => False
    | .setWindow w => ∀ fc buf, SMap.find s.recv id = some (.recv fc buf) → fc.maxActive ≤ w
    | _ => True
  | .send op => match op with
    | .insert .. => False
    | .removeEnded => False
    | .clear => False
    | _ => True
  /- Send streams use what is available. -/
  | .spend n => s.conn.used + n ≤ s.conn.limit
  /- A frame that is lost was sent. -/
  | .maxDataLost m => ∃ e ∈ h, Out.maxData m ∈ e.2
  | .maxStreamsLost t m => ∃ e ∈ h, Out.maxStreams t m ∈ e.2
  /- 0-RTT is rejected before anything of the server is processed. -/
  | .rejected => s.role = .client ∧ ∀ e ∈ h, ∀ f, e.1 ≠ .frame f
  | _ => True

/-- A STOP_SENDING frame does not end a send stream at once, and nothing but acknowledgments does.  (In the code
it can, see `C57_ended_stream_stays`.) -/
def Op.Noted (K : Kind σ γ) (s : State σ) : Op σ γ → Prop
  | .frame (.stopSending id err) => ∀ s' os x, obtainStream K s id = .ok (s', os) →
    imFind s'.send.map id = some x → K.w.ended (K.stop err x.st) = true → K.w.ended x.st = true
  | .send op => op.Noted K.w s.send
  | _ => True

/-- The states of the streams of a connection.  If `q` holds, STOP_SENDING never ended a stream. -/
inductive Reach (K : Kind σ γ) (q : Prop) (role : Role) (cfg : Cfg) : State σ → History σ γ → Prop where
  | init : Reach K q role cfg (.new role cfg) []
  | step {s s' : State σ} {h : History σ γ} {os : List Out} (op : Op σ γ) : Reach K q role cfg s h → op.Allowed s h →
      (q → op.Noted K s) → exec K s op = .ok (s', os) → Reach K q role cfg s' ((op, os) :: h)

end Neqo.Strs
