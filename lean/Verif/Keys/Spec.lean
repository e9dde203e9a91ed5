import Verif.Keys.Model

/-!
Histories of one endpoint's application data keys, with a record of what was protected and what
was opened.
-/

namespace Neqo.Keys

/-- What can happen. -/
inductive Ev where
  /-- 0-RTT keys become available (a client writes with them, a server reads). -/
  | setZero (d : Dir)
  /-- The server rejected 0-RTT. -/
  | reject
  /-- 1-RTT write keys become available. -/
  | setWrite
  /-- 1-RTT read keys become available; 0-RTT read keys expire at the given time. -/
  | setRead (expire : Nat)
  /-- A packet with this much payload is protected. -/
  | send (body : Nat)
  /-- A packet arrives; old keys would be dropped at the given time. -/
  | recv (p : Wire) (releaseAt : Nat)
  /-- The application asks for a key update; the argument is the largest packet number the peer
  has acknowledged. -/
  | initiate (la : Option Nat)
  /-- Time passes. -/
  | tick (now : Nat)
  deriving DecidableEq

/-- The keys with the record: packets protected and packets accepted (epoch and number, newest
first), the epochs of the packets that were opened whether or not they were then accepted, the
number of packets that failed to open, and whether 0-RTT keys were ever set
and rejected. -/
structure Hist where
  k : K
  sent : List (Nat × Nat)
  accepted : List (Nat × Nat)
  opened : List Nat
  forged : Nat
  zeroSet : Bool
  rejected : Bool
  deriving DecidableEq

namespace Hist

/-- The start of a connection. -/
def init (c : Cipher) : Hist :=
  { k := K.init c, sent := [], accepted := [], opened := [], forged := 0, zeroSet := false, rejected := false }

/-- Errors that close the connection (neqo-transport/src/connection/mod.rs:1906-1930); after any
other error the packet is dropped and the connection goes on. -/
def fatal : KErr → Bool
  | .exhausted | .panic => true
  | _ => false

/-- One event. An error means that the connection is closed (or the endpoint panicked). -/
def step (h : Hist) : Ev → Except KErr Hist
  | .setZero d => .ok { h with k := h.k.setZero d, zeroSet := true }
  | .reject =>
    match h.k.discardZero with
    | .error e => .error e
    | .ok k => .ok { h with k := k, rejected := true }
  | .setWrite =>
    match h.k.setWrite with
    | .error e => .error e
    | .ok k => .ok { h with k := k }
  | .setRead t =>
    match h.k.setRead t with
    | .error e => .error e
    | .ok k => .ok { h with k := k }
  | .send b =>
    match h.k.send b with
    | .error .noKeys => .ok h
    | .error e => .error e
    | .ok (k, e, pn) => .ok { h with k := k, sent := (e, pn) :: h.sent }
  | .recv p t =>
    match h.k.decrypt p t with
    | (k, ⟨o, .ok pn⟩) =>
      .ok { h with k := k, accepted := (p.epoch, pn) :: h.accepted, opened := if o then p.epoch :: h.opened else h.opened }
    | (k, ⟨o, .error e⟩) =>
      if fatal e then .error e
      else .ok { h with k := k, opened := if o then p.epoch :: h.opened else h.opened, forged := if e = .decrypt then h.forged + 1 else h.forged }
  | .initiate la =>
    match h.k.initiate la with
    | .error .blocked => .ok h
    | .error e => .error e
    | .ok k => .ok { h with k := k }
  | .tick now =>
    match h.k.checkKeyUpdate now with
    | .error e => .error e
    | .ok k => .ok { h with k := k }

/-- What the connection guarantees about the calls it makes: keys of each kind are set once, 0-RTT
keys never after 1-RTT read keys and a client's not after its 1-RTT write keys, and an update is
asked for only when the handshake is confirmed, so with both 1-RTT keys there
(neqo-transport/src/connection/mod.rs:2990). -/
def Legal (h : Hist) : Ev → Prop
  | .setZero d => h.zeroSet = false ∧ h.k.read = none ∧ (d = .write → h.k.write = none)
  | .reject => h.k.read = none
  | .setWrite => h.k.write = none
  | .setRead _ => h.k.write ≠ none ∧ h.k.read = none
  | .send _ | .recv _ _ | .tick _ => True
  | .initiate _ => h.k.read ≠ none

instance (h : Hist) (e : Ev) : Decidable (h.Legal e) := by
  cases e <;> unfold Legal <;> infer_instance

/-- The histories that can be reached. -/
inductive Reached (c : Cipher) : Hist → Prop where
  | init : Reached c (init c)
  | step {h h' : Hist} {e : Ev} : Reached c h → h.Legal e → h.step e = .ok h' → Reached c h'

/-- Run a list of events, for the examples. -/
def run (h : Hist) : List Ev → Option Hist
  | [] => some h
  | e :: es =>
    if h.Legal e then
      match h.step e with
      | .ok h' => h'.run es
      | .error _ => none
    else none

theorem Reached.run {c : Cipher} {h h' : Hist} (hr : Reached c h) :
    ∀ {es : List Ev}, h.run es = some h' → Reached c h' := by
  intro es
  induction es generalizing h with
  | nil => intro he; rw [Hist.run] at he; exact Option.some.inj he ▸ hr
  | cons e es ih =>
    intro he
    rw [Hist.run] at he
    split at he
    · rename_i hl
      split at he
      · rename_i h1 hs
        exact ih (hr.step hl hs) he
      · cases he
    · cases he

end Hist

end Neqo.Keys
