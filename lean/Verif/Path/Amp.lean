import Verif.Path.Model
import Verif.Recovery.PropsPto

/-!
The anti-amplification limit (C33): one path of a server, together with loss recovery, which
decides how large the next datagram may be.
-/

namespace Neqo.Amp

open Neqo.Path (Path)

/-- What `output_dgram_on_path` may write (connection/mod.rs:2797-2814): all packets of a datagram
together stay within the size of the PMTUD probe if one is wanted, and else within the limit of the
profile, to which Initial packets are padded (connection/mod.rs:2939-2953). -/
def datagramLimit (pr : Rec.Profile) (probe : Option Nat) : Nat := probe.getD pr.limit

/-- `usize::MAX`. -/
def usizeMax : Nat := 2 ^ 64 - 1

/-- A path and loss recovery, and what was sent beyond the limit. -/
structure St where
  p : Path
  r : Rec.Hist
  /-- Datagrams sent while the limit only allows acknowledgments. -/
  small : Nat
  /-- Bytes sent in probe timeouts, as the first packet of a recovery period or while a PMTUD probe
  is wanted. -/
  forced : Nat

/-- What can happen. -/
inductive Ev where
  | recv (len : Nat)
  /-- Any call to loss recovery but for the profile. -/
  | loss (e : Rec.Ev)
  /-- A datagram of `len` bytes is sent. -/
  | send (len : Nat) (pace : Bool) (probe : Option Nat)
  /-- The address is validated. -/
  | valid (now : Nat)

/-- The amplification limit as a number. -/
def St.amp (s : St) : Nat := s.p.amplificationLimit.getD usizeMax

/-- A server's path is made when a datagram of `len` bytes arrives. -/
def St.new (mtu len : Nat) (r : Rec.Hist) : St :=
  { p := { Path.temporary 0 0 mtu with received := len }, r, small := 0, forced := 0 }

/-- Add what was sent (path.rs:1040-1042). -/
def Path.addSent (p : Path) (n : Nat) : Path := { p with sent := p.sent + n }

/-- A datagram is sent, if it may have that size (connection/mod.rs:2768-2953). -/
def St.send (s : St) (len : Nat) (pace : Bool) (probe : Option Nat) : Option St :=
  match s.r.step (.profile s.amp pace) with
  | .error _ => none
  | .ok (r, o) =>
    match o.profile with
    | none => none
    | some pr =>
      if datagramLimit pr probe < len then none
      else if probe.isSome || pr.pto || pr.probe ≠ [] then
        some { s with p := Path.addSent s.p len, r, forced := s.forced + len }
      else if pr.limit < Rec.ackOnlyLimit then
        some { s with p := Path.addSent s.p len, r, small := s.small + 1 }
      else some { s with p := Path.addSent s.p len, r }

/-- One event; none if it cannot happen. -/
def St.step (s : St) : Ev → Option St
  | .recv len => some { s with p := { s.p with received := s.p.received + len } }
  | .loss (.profile _ _) => none
  | .loss e =>
    match s.r.step e with
    | .ok (r, _) => some { s with r }
    | .error _ => none
  | .send len pace probe => s.send len pace probe
  | .valid now => some { s with p := s.p.setValid now }

/-- All events. -/
def St.run (s : St) : List Ev → Option St
  | [] => some s
  | e :: l => (s.step e).bind (fun s' => s'.run l)

/-- The profile of an ordinary packet is within the limit. -/
theorem profile_le {s : Rec.Sys} {amp : Nat} {pace : Bool} {r : Rec.Sys × Rec.Profile}
    (h : s.sendProfile amp pace = .ok r) (h1 : r.2.pto = false) (h2 : r.2.probe = []) :
    r.2.limit ≤ 255 ∨ r.2.limit ≤ amp := by
  unfold Rec.Sys.sendProfile at h
  dsimp only at h
  by_cases hu : (s.pto.any fun p => decide (p.packets > 0)) = true
  · rw [if_pos hu] at h
    split at h
    · obtain rfl := Except.ok.inj h
      cases h1
    · cases h
  · rw [if_neg hu] at h
    have hmin : Nat.min s.cc.avail amp ≤ amp := Nat.min_le_right _ _
    split at h
    · rename_i hgt
      split at h
      · obtain rfl := Except.ok.inj h
        exact Or.inl (Nat.le_refl _)
      · obtain rfl := Except.ok.inj h
        show Nat.max (256 - 1) s.cc.mtu ≤ 255 ∨ Nat.max (256 - 1) s.cc.mtu ≤ amp
        rcases Nat.le_total s.cc.mtu 255 with hm | hm
        · exact Or.inl (Nat.max_le.mpr ⟨Nat.le_refl _, hm⟩)
        · refine Or.inr (Nat.max_le.mpr ⟨?_, ?_⟩)
          · omega
          · omega
    · split at h
      · split at h
        · obtain rfl := Except.ok.inj h
          cases h2
        · cases h
      · obtain rfl := Except.ok.inj h
        show Nat.max (256 - 1) (Nat.min s.cc.avail amp) ≤ 255 ∨
          Nat.max (256 - 1) (Nat.min s.cc.avail amp) ≤ amp
        rcases Nat.le_total (Nat.min s.cc.avail amp) 255 with hm | hm
        · exact Or.inl (Nat.max_le.mpr ⟨Nat.le_refl _, hm⟩)
        · exact Or.inr (Nat.max_le.mpr ⟨by omega, hmin⟩)

/-- What holds while the address is not validated. -/
def St.Ok (s : St) : Prop :=
  s.p.validated = none → 0 < s.p.received ∧
    s.p.sent ≤ 3 * s.p.received + 255 * s.small + s.forced

theorem St.amp_le {s : St} (hv : s.p.validated = none) (hr : 0 < s.p.received) :
    s.amp ≤ 3 * s.p.received - s.p.sent := by
  unfold St.amp Path.amplificationLimit
  split
  · exact Nat.zero_le _
  · have : s.p.isValid = false := by unfold Path.isValid; rw [hv]; rfl
    rw [if_neg (by rw [this]; decide), if_neg (by omega)]
    show s.p.received * 3 - s.p.sent ≤ _
    omega

theorem St.send_ok {s s' : St} {len : Nat} {pace : Bool} {probe : Option Nat} (h : s.Ok)
    (hs : s.send len pace probe = some s') : s'.Ok := by
  unfold St.send at hs
  cases hp : s.r.step (.profile s.amp pace) with
  | error x => rw [hp] at hs; cases hs
  | ok ro =>
    obtain ⟨r, o⟩ := ro
    rw [hp] at hs
    dsimp only at hs
    cases ho : o.profile with
    | none => rw [ho] at hs; cases hs
    | some pr =>
      rw [ho] at hs
      dsimp only at hs
      have hpr : ∃ q, s.r.s.sendProfile s.amp pace = .ok (q, pr) := by
        unfold Rec.Hist.step at hp
        cases hx : s.r.s.step (.profile s.amp pace) with
        | error x => rw [hx] at hp; cases hp
        | ok y =>
          rw [hx] at hp
          have hp := Except.ok.inj hp
          have ho' : y.2 = o := (Prod.mk.inj hp).2
          obtain ⟨z, hz, hzy⟩ := Rec.map_eq_ok (show (s.r.s.sendProfile s.amp pace).map
            (fun r => (r.1, ({ profile := some r.2 } : Rec.Out))) = .ok y from hx)
          rw [← hzy] at ho'
          rw [← ho'] at ho
          have : z.2 = pr := Option.some.inj ho
          exact ⟨z.1, by rw [hz, ← this]⟩
      obtain ⟨q, hq⟩ := hpr
      split at hs
      · cases hs
      · rename_i hlen
        split at hs
        · obtain rfl := Option.some.inj hs
          intro hv
          obtain ⟨h1, h2⟩ := h hv
          refine ⟨h1, ?_⟩
          show s.p.sent + len ≤ 3 * s.p.received + 255 * s.small + (s.forced + len)
          omega
        · rename_i hn
          have hn1 : probe = none := by
            cases probe with
            | none => rfl
            | some x => exact absurd (by simp) hn
          have hn2 : pr.pto = false := by
            cases hx : pr.pto with
            | false => rfl
            | true => exact absurd (by simp [hx]) hn
          have hn3 : pr.probe = [] := by
            by_cases hx : pr.probe = []
            · exact hx
            · exact absurd (by simp [hx]) hn
          subst hn1
          have hlen : len ≤ pr.limit := Nat.not_lt.mp hlen
          have hle := profile_le hq hn2 hn3
          split at hs
          · rename_i hsm
            obtain rfl := Option.some.inj hs
            intro hv
            obtain ⟨h1, h2⟩ := h hv
            refine ⟨h1, ?_⟩
            have hsm : pr.limit < 256 := hsm
            show s.p.sent + len ≤ 3 * s.p.received + 255 * (s.small + 1) + s.forced
            omega
          · rename_i hsm
            obtain rfl := Option.some.inj hs
            intro hv
            obtain ⟨h1, h2⟩ := h hv
            refine ⟨h1, ?_⟩
            have hsm : ¬ pr.limit < 256 := hsm
            have ha := St.amp_le (s := s) hv h1
            have hle : pr.limit ≤ 255 ∨ pr.limit ≤ s.amp := hle
            show s.p.sent + len ≤ 3 * s.p.received + 255 * s.small + s.forced
            omega

theorem St.step_ok {s s' : St} {e : Ev} (h : s.Ok) (hs : s.step e = some s') : s'.Ok := by
  cases e with
  | recv len =>
    obtain rfl := Option.some.inj hs
    intro hv
    obtain ⟨h1, h2⟩ := h hv
    refine ⟨Nat.lt_of_lt_of_le h1 (Nat.le_add_right _ _), ?_⟩
    show s.p.sent ≤ 3 * (s.p.received + len) + 255 * s.small + s.forced
    omega
  | loss e =>
    have : ∃ r o, s.r.step e = .ok (r, o) ∧ s' = { s with r } := by
      unfold St.step at hs
      cases e with
      | profile a b => cases hs
      | _ =>
        dsimp only at hs
        split at hs
        · rename_i r o hr
          exact ⟨r, o, hr, (Option.some.inj hs).symm⟩
        · cases hs
    obtain ⟨r, o, _, rfl⟩ := this
    exact h
  | send len pace probe => exact St.send_ok h hs
  | valid now =>
    obtain rfl := Option.some.inj hs
    intro hv
    cases hv

theorem St.run_ok {s s' : St} {l : List Ev} (h : s.Ok) (hs : s.run l = some s') : s'.Ok := by
  induction l generalizing s with
  | nil => obtain rfl := Option.some.inj hs; exact h
  | cons e l ih =>
    unfold St.run at hs
    cases hx : s.step e with
    | none => rw [hx] at hs; cases hs
    | some s1 =>
      rw [hx] at hs
      exact ih (St.step_ok h hx) hs

/-- Until the client's address is validated a server sends at most three times what it received; and
beyond that, datagrams of at most 255 bytes that only acknowledge, and datagrams for which the limit
is not looked at.  (Missing: the property has no such exceptions.) -/
theorem C33_bound_partial {mtu len : Nat} {r : Rec.Hist} {l : List Ev} {s : St} (hlen : 0 < len)
    (hs : (St.new mtu len r).run l = some s) (hv : s.p.validated = none) :
    s.p.sent ≤ 3 * s.p.received + 255 * s.small + s.forced :=
  (St.run_ok (fun _ => ⟨hlen, Nat.zero_le _⟩) hs hv).2

/-- Without such datagrams, the limit holds. -/
theorem C33_limit_partial {mtu len : Nat} {r : Rec.Hist} {l : List Ev} {s : St} (hlen : 0 < len)
    (hs : (St.new mtu len r).run l = some s) (hv : s.p.validated = none) (h0 : s.small = 0)
    (h1 : s.forced = 0) : s.p.sent ≤ 3 * s.p.received := by
  have := C33_bound_partial hlen hs hv
  omega

theorem of_any {α : Type} {o : Option α} {P : α → Prop} [DecidablePred P]
    (h : (o.any fun s => decide (P s)) = true) : ∃ s, o = some s ∧ P s := by
  cases o with
  | none => cases h
  | some s => exact ⟨s, rfl, of_decide_eq_true h⟩

/-- Loss recovery of a new connection. -/
def rec0 : Rec.Hist := .new 100 100000000 1200 .cubic true

-- Three full datagrams can be sent after one was received, but not a byte more.
example : ((St.new 1200 1200 rec0).run [.send 1200 false none, .send 1200 false none,
    .send 1200 false none]).map (fun s => (s.p.sent, s.small, s.forced, s.p.validated)) =
    some (3600, 0, 0, none) := by decide +kernel

example : ((St.new 1200 1200 rec0).run [.send 1200 false none, .send 1200 false none,
    .send 1200 false none, .send 256 false none]).isNone = true := by decide +kernel

/-- A handshake packet of the server. -/
def hsPkt (n t : Nat) : Rec.Pkt := { pt := .handshake, pn := n, eliciting := true, sent := t, len := 1200 }

/-- The limit is exceeded on probe timeouts: whatever makes the server look at its timers, once the
time has come it sends two full datagrams, though the limit is used up. -/
theorem C33_exceeded_by_probe_timeout : ∃ l s, (St.new 1200 1200 rec0).run l = some s ∧
    s.p.validated = none ∧ s.p.received = 1240 ∧ s.p.sent = 6000 :=
  ⟨[.send 1200 false none, .loss (.send (hsPkt 0 1) none), .send 1200 false none,
    .loss (.send (hsPkt 1 1) none), .send 1200 false none, .loss (.send (hsPkt 2 1) none),
    .recv 40, .loss (.timeout 1000000000 true), .send 1200 false none, .send 1200 false none],
    of_any (by decide +kernel)⟩

/-- And again on each further timeout: there is no bound on how far it is exceeded that depends only
on the bytes received and not on the number of datagrams. -/
theorem C33_exceeded_again : ∃ l s, (St.new 1200 1200 rec0).run l = some s ∧
    s.p.validated = none ∧ s.p.received = 1200 ∧ s.p.sent = 10800 :=
  ⟨[.send 1200 false none, .loss (.send (hsPkt 0 1) none), .send 1200 false none,
    .loss (.send (hsPkt 1 1) none), .send 1200 false none, .loss (.send (hsPkt 2 1) none),
    .loss (.timeout 1000000000 true), .send 1200 false none, .loss (.send (hsPkt 3 1000000000) none),
    .send 1200 false none, .loss (.send (hsPkt 4 1000000000) none),
    .loss (.timeout 5000000000 true), .send 1200 false none, .loss (.send (hsPkt 5 5000000000) none),
    .send 1200 false none, .loss (.send (hsPkt 6 5000000000) none),
    .loss (.timeout 20000000000 true), .send 1200 false none, .loss (.send (hsPkt 7 20000000000) none),
    .send 1200 false none, .loss (.send (hsPkt 8 20000000000) none)],
    of_any (by decide +kernel)⟩

/-- The limit is exceeded by acknowledgments, for which 255 bytes are always allowed. -/
theorem C33_exceeded_by_acknowledgment : ∃ l s, (St.new 1200 50 rec0).run l = some s ∧
    s.p.validated = none ∧ s.p.received = 50 ∧ s.p.sent = 200 :=
  ⟨[.send 200 false none],
    of_any (by decide +kernel)⟩

/-- The limit is not looked at while a PMTUD probe is wanted. -/
theorem C33_exceeded_by_pmtud : ∃ l s, (St.new 1200 50 rec0).run l = some s ∧
    s.p.validated = none ∧ s.p.received = 50 ∧ s.p.sent = 1400 :=
  ⟨[.send 1400 false (some 1452)],
    of_any (by decide +kernel)⟩

end Neqo.Amp
