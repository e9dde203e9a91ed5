import Verif.Recovery.Model

/-!
# What is said about loss recovery

A history is a sequence of calls.  `Hist` keeps, beside the state of the model, what has been observed:
which packets were sent, returned as acknowledged, returned as lost, and handed back for probing.
-/
namespace Neqo.Rec

/-- The calls made on loss recovery and the path. -/
inductive Ev where
  /-- A packet is sent, on the primary path or another one. -/
  | send (p : Pkt) (on : Option Nat)
  | ack (id : SpaceId) (ranges : List (Nat × Nat)) (i : AckIn) (now : Nat)
  | timeout (now : Nat) (hsKeys : Bool)
  | retry (now : Nat)
  | drop0rtt (now : Nat)
  | discard (id : SpaceId) (now : Nat)
  | addPath (rtt mtu : Nat)
  /-- The connection moves to another path (connection/mod.rs:2186-2195, 3501-3508). -/
  | migrate (i : Nat)
  /-- The peer moved to another path, or the primary path failed (connection/mod.rs:2254-2283, path.rs:249-285):
  loss recovery is not told. -/
  | peerMigrate (i : Nat)
  | setMtu (mtu : Nat)
  | setAckDelay (d : Nat)
  | profile (amp : Nat) (pace : Bool)

/-- What a call returns. -/
structure Out where
  acked : List Pkt := []
  lost : List Pkt := []
  probes : List Pkt := []
  /-- Packets that are no longer tracked because their keys, or the whole attempt, were given up. -/
  dropped : List Pkt := []
  profile : Option Profile := none

/-- One call. -/
def Sys.step (s : Sys) : Ev → Except Err (Sys × Out)
  | .send p on => (s.onSent p on).map fun s => (s, {})
  | .ack id rs i now => (s.onAck id rs i now).map fun r => (r.1, { acked := r.2.1, lost := r.2.2 })
  | .timeout now hs => (s.onTimeout now hs).map fun r => (r.1, { lost := r.2.1, probes := r.2.2 })
  | .retry now => (s.retry now).map fun r => (r.1, { dropped := r.2 })
  | .drop0rtt now => (s.drop0rtt now).map fun r => (r.1, { dropped := r.2 })
  | .discard id now => (s.discardSpace id now).map fun r => (r, { dropped := s.pkts id })
  | .addPath rtt mtu => .ok (s.addPath rtt mtu, {})
  | .migrate i => .ok ((s.switchPath i).clearPrimary, {})
  | .peerMigrate i => .ok (s.switchPath i, {})
  | .setMtu m => .ok ({ s with cc := { s.cc with mtu := m } }, {})
  | .setAckDelay d => .ok ({ s with rtt := { s.rtt with maxAckDelay := d } }, {})
  | .profile amp pace => (s.sendProfile amp pace).map fun r => (r.1, { profile := some r.2 })

/-- The time of a call. -/
def Ev.now (clock : Nat) : Ev → Nat
  | .send p _ => p.sent
  | .ack _ _ _ now => now
  | .timeout now _ => now
  | .retry now => now
  | .drop0rtt now => now
  | .discard _ now => now
  | _ => clock

/-- A packet is identified by its space and number. -/
def Pkt.key (p : Pkt) : SpaceId × Nat := (p.pt.space, p.pn)

/-- The state and what has been observed. -/
structure Hist where
  s : Sys
  clock : Nat
  /-- In each space, a number above those of all packets sent. -/
  next : SpaceId → Nat
  /-- The packets sent, as they were sent. -/
  sent : List Pkt
  acked : List (SpaceId × Nat)
  lost : List (SpaceId × Nat)
  probed : List (SpaceId × Nat)
  dropped : List (SpaceId × Nat)
  /-- The primary path never changed without loss recovery being told. -/
  clean : Bool

/-- The packet numbers after a call. -/
def Ev.next (e : Ev) (f : SpaceId → Nat) : SpaceId → Nat :=
  match e with
  | .send p _ => fun i => if i = p.pt.space then p.pn + 1 else f i
  | _ => f

/-- The packet sent by a call, if any. -/
def Ev.pkt : Ev → List Pkt
  | .send p _ => [p]
  | _ => []

/-- If the call changes the primary path without telling loss recovery. -/
def Ev.silent : Ev → Bool
  | .peerMigrate _ => true
  | _ => false

/-- One call, recording what is observed. -/
def Hist.step (h : Hist) (e : Ev) : Except Err (Hist × Out) :=
  match h.s.step e with
  | .error x => .error x
  | .ok (s, o) =>
    .ok ({ s := s, clock := e.now h.clock, next := e.next h.next, sent := h.sent ++ e.pkt
           acked := h.acked ++ o.acked.map Pkt.key
           lost := h.lost ++ o.lost.map Pkt.key
           probed := h.probed ++ o.probes.map Pkt.key
           dropped := h.dropped ++ o.dropped.map Pkt.key
           clean := h.clean && !e.silent }, o)

/-- The start. -/
def Hist.new (fastPto initialRtt mtu : Nat) (alg : Alg) (spurious : Bool) : Hist :=
  { s := Sys.new fastPto initialRtt mtu alg spurious, clock := 0, next := fun _ => 0, sent := [], acked := [], lost := [], probed := [], dropped := [], clean := true }

/-- The ranges of an ACK frame: each is not empty, and they descend (the frame decoder makes them so, see
C25). -/
def Descending : Option Nat → List (Nat × Nat) → Prop
  | _, [] => True
  | prev, (lo, hi) :: rs => (∀ s, prev = some s → hi < s) ∧ lo ≤ hi ∧ Descending (some lo) rs

/-- The calls the connection makes: time does not go back, packet numbers increase, ACK ranges are as
decoded, the application space is never dropped and the others at most once with Initial first, the connection moves to
paths that exist, no MTU is less than `m`. -/
def Legal (m : Nat) (h : Hist) : Ev → Prop
  | .send p _ => h.clock ≤ p.sent ∧ h.next p.pt.space ≤ p.pn
  | .ack _ rs i now => h.clock ≤ now ∧ Descending none rs ∧ 0 < i.bfi
  | .timeout now _ => h.clock ≤ now
  | .retry now => h.clock ≤ now
  | .drop0rtt now => h.clock ≤ now
  | .discard id now => h.clock ≤ now ∧ id ≠ .app ∧ (h.s.spaces id).isSome ∧ (id = .handshake → h.s.spaces .initial = none)
  | .addPath _ mtu => m ≤ mtu
  | .migrate i => i < h.s.others.length
  | .peerMigrate i => i < h.s.others.length
  | .setMtu mtu => m ≤ mtu
  | _ => True

/-- The histories in which no path's MTU is less than `m`. -/
inductive Reached (m : Nat) : Hist → Prop
  | new {fastPto initialRtt mtu alg spurious} (hm : 256 < m) (hmtu : m ≤ mtu) : Reached m (.new fastPto initialRtt mtu alg spurious)
  | step {h h' e o} : Reached m h → Legal m h e → h.step e = .ok (h', o) → Reached m h'

/-- A packet number is in one of the ranges. -/
def InRanges (rs : List (Nat × Nat)) (pn : Nat) : Prop := ∃ r ∈ rs, r.1 ≤ pn ∧ pn ≤ r.2

/-- The packets being tracked in a space. -/
def Hist.tracked (h : Hist) (id : SpaceId) : List Pkt := h.s.pkts id

/-- The bytes of ack-eliciting packets that were sent on the current primary path since it became the
primary one and that are neither acknowledged, nor lost, nor discarded. -/
def inFlightBytes (epoch : Nat) : List Pkt → Nat
  | [] => 0
  | p :: ps => (if p.eliciting ∧ p.epoch = some epoch ∧ p.lost = none then p.len else 0) + inFlightBytes epoch ps

/-- `q` is the packet `p` as it was sent, whatever has been noted about it since. -/
structure SamePkt (p q : Pkt) : Prop where
  pt : q.pt = p.pt
  pn : q.pn = p.pn
  sent : q.sent = p.sent
  len : q.len = p.len
  eliciting : q.eliciting = p.eliciting
  tokens : q.tokens = p.tokens

/-- The time threshold for loss (RFC 9002, section 6.1.2): 9/8 of the larger of the latest and the smoothed
round-trip time, and at least 1 ms. -/
def timeThreshold (r : Rtt) : Nat := max (max r.latest r.smoothed * 9 / 8) 1000000

/-- Packet `p` should be considered lost when packet `n` has been acknowledged. -/
def Overdue (r : Rtt) (now n : Nat) (p : Pkt) : Prop := p.pn < n ∧ (p.pn + 3 ≤ n ∨ p.sent + timeThreshold r ≤ now)

/-- The packet `p` is tracked and not lost. -/
def Hist.pending (h : Hist) (p : Pkt) : Prop := ∃ q ∈ h.tracked p.pt.space, SamePkt p q ∧ q.lost = none

/-- When the last ack-eliciting packet of a space was sent. -/
def lastElicited (sent : List Pkt) (id : SpaceId) : Option Nat :=
  ((sent.filter fun p => decide (p.pt.space = id) && p.eliciting).getLast?).map (·.sent)

/-- The probe timeout before backing off (RFC 9002, section 6.2.1), in nanoseconds. -/
def probeBase (r : Rtt) (confirmed : Bool) : Nat := r.smoothed + max (4 * r.var) 1000000 + (if confirmed then r.maxAckDelay else 0)

/-- The probe timeout after `count` probe timeouts in a row: it doubles each time, for at most 24 times, and is
scaled by a percentage that is 100 by default.  What is too large for a duration is replaced by one hour. -/
def probePeriod (base count percent : Nat) : Nat :=
  if base * percent * 2 ^ min count 24 < 2 ^ 64 * 1000000000 then base * percent * 2 ^ min count 24 / 100 else 3600 * 1000000000

/-- The probe timeout that applies. -/
def Hist.period (h : Hist) : Nat := probePeriod (probeBase h.s.rtt h.s.confirmed.isSome) h.s.ptoCount h.s.fastPto

/-- The probe timer fired in this call: the count of consecutive timeouts changed, or, when keys are discarded,
which first clears it, is not zero. -/
def Fires (h : Hist) (e : Ev) (h' : Hist) : Prop :=
  match e with
  | .timeout _ _ => h'.s.ptoCount ≠ h.s.ptoCount
  | .discard _ _ => h'.s.ptoCount ≠ 0
  | _ => False

instance (h : Hist) (e : Ev) (h' : Hist) : Decidable (Fires h e h') := by
  unfold Fires
  split <;> infer_instance

/-- The call allows one datagram because of a probe timeout. -/
def Out.probe (o : Out) : Bool := o.profile.any (·.pto)

/-- A number of calls, counting how often the probe timer fires and how many datagrams are allowed because of
that. -/
inductive Run (m : Nat) (h : Hist) : Nat → Nat → Hist → Prop
  | refl : Run m h 0 0 h
  | step {f n h₁ h₂ e o} : Run m h f n h₁ → Legal m h₁ e → h₁.step e = .ok (h₂, o) →
      Run m h (if Fires h₁ e h₂ then f + 1 else f) (if o.probe then n + 1 else n) h₂

/-- The calls after which packets are no longer tracked although nothing was heard about them. -/
def Ev.drops : Ev → Bool
  | .retry _ => true
  | .drop0rtt _ => true
  | .discard _ _ => true
  | _ => false

/-! ## Running the model on examples -/

instance decDescending : ∀ (prev : Option Nat) (rs : List (Nat × Nat)), Decidable (Descending prev rs)
  | _, [] => .isTrue trivial
  | prev, (lo, hi) :: rs =>
    have := decDescending (some lo) rs
    have : Decidable (∀ s, prev = some s → hi < s) :=
      match prev with
      | none => .isTrue (fun _ h => by cases h)
      | some s => if h : hi < s then .isTrue (fun _ e => by injection e with e; exact e ▸ h) else .isFalse (fun c => h (c s rfl))
    inferInstanceAs (Decidable ((∀ s, prev = some s → hi < s) ∧ lo ≤ hi ∧ Descending (some lo) rs))

instance (x : Option Space) : Decidable (x = none) :=
  match x with
  | none => .isTrue rfl
  | some _ => .isFalse (fun h => by cases h)

instance (m : Nat) (h : Hist) (e : Ev) : Decidable (Legal m h e) := by
  cases e <;> (unfold Legal; infer_instance)

/-- Make calls that are checked to be legal. -/
def Hist.run (m : Nat) : Hist → List Ev → Option Hist
  | h, [] => some h
  | h, e :: es => if Legal m h e then
      match h.step e with
      | .error _ => none
      | .ok r => Hist.run m r.1 es
    else none

theorem Reached.run {m : Nat} {h : Hist} (hr : Reached m h) : ∀ {es : List Ev} {h' : Hist}, h.run m es = some h' → Reached m h' := by
  intro es
  induction es generalizing h with
  | nil => intro h' he; injection he with he; exact he ▸ hr
  | cons e es ih =>
    intro h' he
    unfold Hist.run at he
    split at he
    · rename_i hl
      split at he
      · cases he
      · rename_i r hs
        obtain ⟨h₁, o⟩ := r
        exact ih (.step hr hl hs) he
    · cases he

end Neqo.Rec
