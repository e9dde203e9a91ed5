import Verif.Recovery.Props

/-! # C29 and C52: bytes in flight, and freedom from panics -/
namespace Neqo.Rec

variable {m : Nat} {h h' : Hist} {e : Ev} {o : Out}

/-- The bytes in flight that there should be. -/
def Hist.flightBytes (h : Hist) : Nat :=
  inFlightBytes h.s.epoch (h.tracked .initial) + inFlightBytes h.s.epoch (h.tracked .handshake) + inFlightBytes h.s.epoch (h.tracked .app)

theorem inFlightBytes_eq (ep : Nat) : ∀ (ps : List Pkt), (∀ p ∈ ps, (p.primary = true ↔ p.epoch = some ep)) → inFlightBytes ep ps = total outLen ps := by
  intro ps
  induction ps with
  | nil => intro _; rfl
  | cons p ps ih =>
    intro h
    rw [total_cons]
    unfold inFlightBytes
    rw [ih (fun q hq => h q (List.mem_cons_of_mem _ hq))]
    congr 1
    have := h p List.mem_cons_self
    unfold outLen Pkt.outstanding
    by_cases hc : p.eliciting ∧ p.epoch = some ep ∧ p.lost = none
    · rw [if_pos hc, if_pos]
      simp [hc.1, this.mpr hc.2.1, hc.2.2]
    · rw [if_neg hc, if_neg]
      intro hx
      simp only [Bool.and_eq_true, Option.isNone_iff_eq_none] at hx
      exact hc ⟨hx.1.1, this.mp hx.1.2, hx.2⟩

/-- C29: the bytes in flight are exactly those of the ack-eliciting packets sent on the primary path since it became
that and not acknowledged, lost or discarded, as long as loss recovery is told of all changes of the primary path.
What is missing: they are not told when the peer moves to another address, see
`C29_inexact_after_peer_migration`. -/
theorem C29_exact_partial (hr : Reached m h) (hc : h.clean = true) : h.s.cc.flight = h.flightBytes := by
  have hi := hr.inv.core
  rw [hi.exact hc]
  unfold Hist.flightBytes tot Hist.tracked
  rw [inFlightBytes_eq _ _ (hi.epoch hc .initial), inFlightBytes_eq _ _ (hi.epoch hc .handshake), inFlightBytes_eq _ _ (hi.epoch hc .app)]
  omega

/-- A history without silent changes: one packet of three is acknowledged, then the connection migrates and sends another. -/
def exMove : Option Hist :=
  Hist.run 1200 (.new 100 100000000 1200 .cubic true)
    [.send (exPkt 0 0) none, .send (exPkt 1 10) none, .send (exPkt 2 20) none, .ack .app [(1, 1)] {} 50000000]
def exMove2 : Option Hist :=
  exMove.bind fun h => h.run 1200 [.addPath 100000000 1280, .migrate 0, .send (exPkt 3 60000000) none, .ack .app [(2, 2)] {} 70000000]
example : exMove.map (fun h => (h.clean, h.s.cc.flight, h.flightBytes)) = some (true, 2000, 2000) := by decide +kernel
example : exMove2.map (fun h => (h.clean, h.s.cc.flight, h.flightBytes)) = some (true, 1000, 1000) := by decide +kernel

/-- The peer moves to another address: the packet sent before is still taken to be one sent on the primary path. -/
def exPeer : Option Hist :=
  Hist.run 1200 (.new 100 100000000 1200 .cubic true)
    [.addPath 100000000 1200, .send (exPkt 0 0) none, .peerMigrate 0, .send (exPkt 1 10) none, .ack .app [(0, 0)] {} 50000000]

/-- C29 does not hold in general: after the peer moves to another address (connection/mod.rs:2254-2283), an
acknowledgement of a packet sent before lowers the bytes in flight of the new path. -/
theorem C29_inexact_after_peer_migration : ∃ h, Reached 1200 h ∧ h.s.cc.flight = 0 ∧ h.flightBytes = 1000 := by
  have : exPeer.isSome = true := by decide +kernel
  obtain ⟨h, hh⟩ := Option.isSome_iff_exists.mp this
  have e1 : exPeer.map (fun h => (h.s.cc.flight, h.flightBytes)) = some (0, 1000) := by decide +kernel
  rw [hh] at e1
  injection e1 with e1
  injection e1 with e1 e2
  exact ⟨h, Reached.run (.new (by decide) (by decide)) hh, e1, e2⟩

/-! ## C52 -/

/-- C52: no call panics, and the counts of lost packets do not underflow: this holds for every call if loss recovery is
told of all changes of the primary path, and in any case for calls that do not drop packets.  What is missing: see
`C52_discard_panics`. -/
theorem C52_no_panic_partial (hr : Reached m h) (hl : Legal m h e) (hc : h.clean = true ∨ e.drops = false) : ∃ r, h.step e = .ok r := by
  have hi := hr.inv
  have lift : (∃ r, h.s.step e = .ok r) → ∃ r, h.step e = .ok r := by
    rintro ⟨⟨s, o⟩, hs⟩
    unfold Hist.step
    rw [hs]
    exact ⟨_, rfl⟩
  have mapOk : ∀ {α β : Type} {a : Except Err α} {f : α → β}, (∃ x, a = .ok x) → ∃ y, a.map f = .ok y := by
    rintro α β a f ⟨x, rfl⟩
    exact ⟨f x, rfl⟩
  apply lift
  cases e with
  | send p on =>
    obtain ⟨s₁, h1, _⟩ := hi.core.onSent hi.stats (on := on) hl.1 hl.2
    exact mapOk ⟨_, h1⟩
  | ack id rs i now =>
    obtain ⟨s₁, lost, h1, _⟩ := hi.core.onAck hi.stats (id := id) (i := i) hl.1 hl.2.1 hl.2.2
    exact mapOk ⟨_, h1⟩
  | timeout now hk =>
    obtain ⟨s₁, lost, probes, h1, _⟩ := hi.core.onTimeout hi.stats hl hk
    exact mapOk ⟨_, h1⟩
  | retry now =>
    rcases hc with hc | hc
    · exact mapOk ((hi.core.retry hi.stats hl).2 hc)
    · cases hc
  | drop0rtt now =>
    rcases hc with hc | hc
    · exact mapOk ((hi.core.drop0rtt hi.stats hl).2 hc)
    · cases hc
  | discard id now =>
    rcases hc with hc | hc
    · exact mapOk ((hi.core.discardSpace hi.stats hl.1 hl.2.1 hl.2.2.1 hl.2.2.2).2 hc)
    · cases hc
  | profile amp pace =>
    obtain ⟨s₁, pr, q1, _⟩ := hi.core.sendProfile hi.big hi.stats amp pace
    exact mapOk ⟨_, q1⟩
  | _ => exact ⟨_, rfl⟩

example : ∃ h, Reached 1200 h ∧ h.clean = true ∧ Legal 1200 h (.discard .handshake 100000000) ∧ ∃ r, h.step (.discard .handshake 100000000) = .ok r := by
  let es : List Ev := [.send { pt := .initial, pn := 0, eliciting := true, sent := 0, len := 1200 } none,
    .send { pt := .handshake, pn := 0, eliciting := true, sent := 1, len := 700 } none, .send (exPkt 0 2) none, .discard .initial 3]
  have : (Hist.run 1200 (.new 100 100000000 1200 .cubic true) es).isSome = true := by decide +kernel
  obtain ⟨h, hh⟩ := Option.isSome_iff_exists.mp this
  have hr : Reached 1200 h := Reached.run (.new (by decide) (by decide)) hh
  have e1 : (Hist.run 1200 (.new 100 100000000 1200 .cubic true) es).map (fun h => (h.clean, decide (Legal 1200 h (.discard .handshake 100000000)))) = some (true, true) := by decide +kernel
  rw [hh] at e1
  injection e1 with e1
  injection e1 with e1 e2
  have hl := of_decide_eq_true e2
  exact ⟨h, hr, e1, hl, C52_no_panic_partial hr hl (.inl e1)⟩

/-- A server sends a Handshake packet, the client moves to another address and completes the handshake without
acknowledging that packet, and the Handshake keys are discarded. -/
def exDiscard : Option Hist :=
  Hist.run 1200 (.new 100 100000000 1200 .cubic true)
    [.send { pt := .initial, pn := 0, eliciting := true, sent := 0, len := 1200 } none,
     .send { pt := .handshake, pn := 0, eliciting := true, sent := 1, len := 700 } none,
     .discard .initial 50000000, .addPath 100000000 1200, .peerMigrate 0]

/-- C52 does not hold in general: if the peer moved to another address, discarding the keys of a space in which
packets are outstanding can panic. -/
theorem C52_discard_panics : ∃ h, Reached 1200 h ∧ Legal 1200 h (.discard .handshake 60000000) ∧ h.step (.discard .handshake 60000000) = .error .panic := by
  have : exDiscard.isSome = true := by decide +kernel
  obtain ⟨h, hh⟩ := Option.isSome_iff_exists.mp this
  have e1 : exDiscard.map (fun h => (decide (Legal 1200 h (.discard .handshake 60000000)),
      match h.step (.discard .handshake 60000000) with | .error e => some e | .ok _ => none)) = some (true, some .panic) := by decide +kernel
  rw [hh] at e1
  injection e1 with e1
  injection e1 with e1 e2
  refine ⟨h, Reached.run (.new (by decide) (by decide)) hh, of_decide_eq_true e1, ?_⟩
  cases hx : h.step (.discard .handshake 60000000) with
  | error x => rw [hx] at e2; injection e2 with e2; rw [e2]
  | ok r => rw [hx] at e2; cases e2

end Neqo.Rec
