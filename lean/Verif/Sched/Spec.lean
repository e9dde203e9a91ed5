import Verif.Sched.Pass
import Verif.SendStream.Model

/-!
What the scheduling properties talk about: histories of calls, the places where streams are queued,
and the calls made while packets are written.
-/

namespace Neqo.Sched

variable {σ γ : Type}

/-- The calls made to streams, in order. -/
def Env.calls (e : Env σ γ) : List Offer := e.log.reverse

/-- All places in the queues: group, order and stream. -/
def places (s : Sched σ) : List (Nat × Option Nat × Nat) :=
  s.groups.flatMap (fun e =>
    e.2.ordered.flatMap (fun b => b.2.vec.map (fun id => (e.1, some b.1, id))) ++
      e.2.regular.vec.map (fun id => (e.1, none, id)))

/-- Where a stream belongs: nowhere, or in its group with its order. -/
def Strm.place (x : Strm σ) (id : Nat) : List (Nat × Option Nat × Nat) :=
  if x.fair then [(x.group.getD nullGroup, x.order, id)] else []

/-- What is done to the streams of a connection. -/
inductive Op (σ γ : Type) where
  | insert (id : Nat) (st : σ)
  | group (id : Nat) (g : Option Nat)
  | order (id : Nat) (o : Option Nat)
  | fair (id : Nat) (b : Bool)
  /-- An acknowledgment for a stream. -/
  | acked (id : Nat) (f : σ → σ)
  /-- Anything else done to a stream. -/
  | touch (id : Nat) (f : σ → σ)
  | write (sh : γ) (rem : Nat)
  | removeEnded
  | clear

/-- One call.  A call that is refused changes nothing. -/
def Sched.exec (w : Writer σ γ) (s : Sched σ) : Op σ γ → Except Err (Sched σ)
  | .insert id st => .ok (s.insert id st)
  | .group id g => s.setSendGroup id g
  | .order id o => s.setSendOrder id o
  | .fair id b => s.setFairness id b
  | .acked id f => .ok (s.acked w id f)
  | .touch id f => .ok (s.touch id f)
  | .write sh rem => .ok (s.writeFrames w sh rem).1
  | .removeEnded => (s.removeEnded w).map (·.1)
  | .clear => .ok s.clear

/-- What callers keep to: stream IDs are new. -/
def Op.Allowed (s : Sched σ) : Op σ γ → Prop
  | .insert id _ => imFind s.map id = none
  | _ => True

/-- Only an acknowledgment ends a stream: that is where the code notes it. -/
def Op.Noted (w : Writer σ γ) (s : Sched σ) : Op σ γ → Prop
  | .insert _ st => w.ended st = false
  | .touch id f => ∀ x, imFind s.map id = some x → w.ended (f x.st) = true → w.ended x.st = true
  | _ => True

/-- Writing does not end a stream. -/
def WriterEnds (w : Writer σ γ) : Prop := ∀ sh st rem, w.ended (w.write sh st rem).st = w.ended st

/-- The states of a connection's streams.  If `q` holds, only acknowledgments ended streams. -/
inductive Reach (w : Writer σ γ) (q : Prop) : Sched σ → Prop where
  | init : Reach w q {}
  | step {s s' : Sched σ} (op : Op σ γ) : Reach w q s → op.Allowed s → (q → op.Noted w s) → s.exec w op = .ok s' →
      Reach w q s'

/-- One packet: anything may have happened to the streams' data before. -/
structure Call (σ γ : Type) where
  upd : Nat → σ → σ
  sh : γ
  rem : Nat

def Sched.update (s : Sched σ) (upd : Nat → σ → σ) : Sched σ :=
  { s with map := s.map.map (fun e => (e.1, { e.2 with st := upd e.1 e.2.st })) }

/-- The calls made for each of a sequence of packets. -/
def packets (w : Writer σ γ) : Sched σ → List (Call σ γ) → List (List Offer)
  | _, [] => []
  | s, c :: cs =>
    match (s.update c.upd).writeFrames w c.sh c.rem with
    | (s, e) => e.calls :: packets w s cs

/-- A STREAM frame. -/
def isStream : Send.Frame → Bool
  | .stream .. => true
  | _ => false

/-- A writer made of the stream of `Verif.SendStream.Model`, at one priority; `more` is the value
that `write_frames` (send_stream.rs:813-831) returns. -/
def sendWriter (p : Send.Prio) (split : Nat) : Writer Send.Stream Flow.SFc where
  has s := s.hasDataAt p
  write conn s rem :=
    match s.writeFrames conn p rem split with
    | .error _ => ⟨s, conn, rem, false, decide (2 ≤ rem)⟩
    | .ok (s', conn', wr) =>
      let reset := match s.writeReset p rem with
        | .ok (_, _, b) => b
        | .error _ => false
      let wrote := wr.frames.any isStream
      ⟨s', conn', wr.rem, wrote, reset || decide (2 ≤ wr.rem)⟩
  ended s := match s.state with
    | .dataRecvd .. => true
    | .resetRecvd .. => true
    | _ => false

end Neqo.Sched
