import Verif.Hs.ServerL

/-!
# The assertions in the handshake code hold
-/
namespace Neqo.Hs
open Neqo.Codec (Bytes)
open Neqo.Pkt (Version)
open Spec

/-- What is needed for the assertions. -/
structure Safe (c : Conn) : Prop where
  versions : c.tps.loc.versions.isSome
  cfg : c.cfg.initial ∈ c.cfg.all
  state : c.state ≠ .closed .panic

theorem handle_safe {h : Handler} (k : h.loc.versions.isSome) (p : Params) :
    match h.handle p with
    | .ok h' => h'.loc.versions.isSome
    | .error e => e ≠ .panic := by
  have : match h.compatibleUpgrade p with
      | .ok h' => h'.loc.versions.isSome
      | .error e => e ≠ .panic := by
    unfold Handler.compatibleUpgrade
    by_cases h1 : h.selected = true
    · rw [if_pos h1]; exact k
    rw [if_neg h1]
    cases h2 : p.versions with
    | none => exact k
    | some vi =>
      dsimp only
      by_cases h3 : h.client = true
      · rw [if_pos h3]
        cases h4 : Version.ofWire vi.current with
        | none => simp
        | some w =>
          dsimp only
          by_cases h5 : (h.cfg.compatible.any fun x => x == w) = true
          · rw [if_pos h5]; exact k
          · rw [if_neg h5]; simp
      rw [if_neg h3]
      by_cases h4 : vi.current ≠ h.cfg.initial.wire
      · rw [if_pos h4]; simp
      rw [if_neg h4]
      cases h5 : h.cfg.preferredCompatible vi.other with
      | none => simp
      | some q =>
        dsimp only
        by_cases h6 : q ≠ h.cfg.initial
        · have hq : q ∈ h.cfg.all := (List.mem_filter.mp (findPreferred_some h5).mem).1
          obtain ⟨lv, hl⟩ := Option.isSome_iff_exists.mp k
          rw [if_pos h6, Config.setInitial, if_pos hq, hl]
          rfl
        · rw [if_neg h6]; exact k
  unfold Handler.handle
  cases hu : h.compatibleUpgrade p with
  | ok h' => rw [hu] at this; exact this
  | error e => rw [hu] at this; cases e <;> simp_all

/-- A result that is safe. -/
def SafeRes (r : Except HErr Conn) : Prop :=
  match r with
  | .ok c => Safe c
  | .error e => e ≠ .panic

theorem Safe.setState {c : Conn} (h : Safe c) {s : St} (hs : s ≠ .closed .panic) : Safe (c.setState s) := by
  unfold Conn.setState
  split
  · exact ⟨h.versions, h.cfg, hs⟩
  · exact h

theorem Safe.fail {c : Conn} (h : Safe c) {e : HErr} (he : e ≠ .panic) : Safe (c.fail e) :=
  h.setState (by intro hh; exact he (St.closed.inj hh))

theorem Safe.handleParams {c : Conn} (h : Safe c) (ps : Option Params) : SafeRes (c.handleParams ps) := by
  cases ps with
  | none => exact h
  | some p =>
    have := handle_safe h.versions p
    unfold Conn.handleParams
    dsimp only
    cases hh : c.tps.handle p with
    | error e => rw [hh] at this; exact this
    | ok t => rw [hh] at this; exact ⟨this, h.cfg, h.state⟩

theorem Safe.compatibleUpgrade {c : Conn} (h : Safe c) (pv : Version) : SafeRes (c.compatibleUpgrade pv) := by
  unfold Conn.compatibleUpgrade
  split
  · cases ht : c.target pv with
    | error e =>
      unfold Conn.target at ht
      split at ht
      · cases ht
      · split at ht
        · cases ht; simp [SafeRes]
        · cases ht
    | ok x =>
      obtain ⟨v, keys⟩ := x
      dsimp only
      split
      · simp [SafeRes]
      · exact ⟨h.versions, h.cfg, h.state⟩
  · exact h

theorem Safe.complete {c : Conn} (h : Safe c) (b : Bool) : SafeRes (c.complete b) := by
  unfold Conn.complete
  split
  · unfold Conn.setConnected
    cases hc : c.validateCids with
    | error e =>
      unfold Conn.validateCids at hc
      dsimp only
      intro he
      subst he
      split at hc
      · cases hc
      · split at hc
        · cases hc
        · split at hc
          · split at hc
            · cases hc
            · split at hc <;> cases hc
          · cases hc
    | ok _ =>
      dsimp only
      cases hv : c.validateVersions with
      | error e =>
        unfold Conn.validateVersions at hv
        dsimp only
        intro he
        subst he
        split at hv
        · cases hv
        · split at hv
          · split at hv
            · cases hv
            · split at hv
              · cases hv
              · split at hv
                · cases hv
                · split at hv
                  · cases hv
                  · split at hv <;> cases hv
          · split at hv <;> cases hv
      | ok _ => exact h.setState (by simp)
  · exact h

theorem Safe.handshake {c : Conn} (h : Safe c) (ini : Bool) (pv : Version) (t : Tls) :
    SafeRes (c.handshake ini pv t) := by
  unfold Conn.handshake
  have h1 := h.handleParams t.params
  cases e1 : c.handleParams t.params with
  | error e => rw [e1] at h1; exact h1
  | ok c1 =>
    rw [e1] at h1
    dsimp only
    have h2 := Safe.complete h1 (t.complete && !ini)
    cases e2 : c1.complete (t.complete && !ini) with
    | error e => rw [e2] at h2; exact h2
    | ok c2 =>
      rw [e2] at h2
      dsimp only
      unfold Conn.secrets
      split
      · have h3 := Safe.compatibleUpgrade h2 pv
        cases e3 : c2.compatibleUpgrade pv with
        | error e => rw [e3] at h3; exact h3
        | ok c3 => rw [e3] at h3; exact ⟨h3.versions, h3.cfg, h3.state⟩
      · exact h2

theorem Safe.inputCrypto {c : Conn} (h : Safe c) (ini : Bool) (pv : Version) (t : Option Tls) :
    SafeRes (c.inputCrypto ini pv t) := by
  unfold Conn.inputCrypto
  have h1 : SafeRes (c.follow ini pv) := by
    unfold Conn.follow
    split
    · exact h.compatibleUpgrade pv
    · exact h
  cases e1 : c.follow ini pv with
  | error e => rw [e1] at h1; exact h1
  | ok c1 =>
    rw [e1] at h1
    dsimp only
    cases t with
    | none => exact h1
    | some t => exact Safe.handshake h1 ini pv t

theorem Safe.frames {c : Conn} (h : Safe c) (ini : Bool) (pv : Version) (ts : List (Option Tls)) :
    SafeRes (c.frames ini pv ts) := by
  induction ts generalizing c with
  | nil => exact h
  | cons t ts ih =>
    unfold Conn.frames
    have h1 := h.inputCrypto ini pv t
    cases e1 : c.inputCrypto ini pv t with
    | error e => rw [e1] at h1; exact h1
    | ok c1 => rw [e1] at h1; exact ih h1

theorem Safe.packet {c : Conn} (h : Safe c) (ini : Bool) (v : Version) (scid : Bytes) (ts : List (Option Tls)) :
    Safe (c.packet ini v scid ts) := by
  unfold Conn.packet
  have h1 := h.frames ini v ts
  cases e1 : c.frames ini v ts with
  | error e => rw [e1] at h1; exact h.fail h1
  | ok c1 =>
    rw [e1] at h1
    dsimp only
    unfold Conn.postprocess
    dsimp only
    have h2 : Safe (if c1.state = .waitInitial then c1.startHandshake scid else c1) := by
      split
      · exact ⟨h1.versions, h1.cfg, h1.state⟩
      · exact h1
    generalize (if c1.state = .waitInitial then c1.startHandshake scid else c1) = c2 at h2
    split
    · refine h2.setState ?_
      split <;> simp
    · exact h2

theorem Safe.vn {c : Conn} (h : Safe c) (scid : Bytes) (vs : List Nat) (f : Fresh) : Safe (c.inputVn scid vs f) := by
  unfold Conn.inputVn
  split
  · split
    · exact h
    · next h2 =>
      unfold Conn.versionNegotiation
      cases hp : c.cfg.preferred vs with
      | none => exact h.fail (by simp)
      | some v =>
        dsimp only
        have hb := findPreferred_some hp
        rw [if_neg (by
          intro he
          exact h2 (.inr (.inl (by rw [he]; exact hb.offered)))), Config.new, if_pos hb.mem]
        dsimp only
        rw [Config.setInitial, if_pos (by
          show c.cfg.initial ∈ c.cfg.all
          exact h.cfg)]
        exact ⟨rfl, h.cfg, by simp [Conn.newClient, Conn.new]⟩
  · exact h

theorem Safe.step {c : Conn} (h : Safe c) (e : Ev) : Safe (c.step e) := by
  cases e with
  | start =>
    show Safe c.start
    unfold Conn.start
    split
    · exact h.setState (by simp)
    · exact h
  | vn scid vs f => exact h.vn scid vs f
  | retry scid tok d =>
    show Safe (c.inputRetry scid tok d)
    unfold Conn.inputRetry
    split
    · split
      · exact h
      · split
        · exact h
        · split
          · exact h.fail (by simp)
          · split
            · exact h
            · split
              · exact h
              · exact ⟨h.versions, h.cfg, h.state⟩
    · exact h
  | initial v key scid dcid valid fs =>
    have hp : Safe (c.preprocessInitial v dcid valid) := by
      unfold Conn.preprocessInitial
      split
      · split
        · exact h
        · have h1 : Safe ({ c with keys := initServer c.keys v dcid, odcid := some dcid } : Conn) :=
            ⟨h.versions, h.cfg, h.state⟩
          have h2 := h1.setState (s := .waitInitial) (by simp)
          dsimp only
          split
          · exact ⟨h2.versions, h2.cfg, h2.state⟩
          · exact h2
      · exact h
    show Safe (match (c.preprocessInitial v dcid valid).state with
      | .init | .closed _ => c.preprocessInitial v dcid valid
      | _ => if (c.preprocessInitial v dcid valid).keys v = some key then
          (c.preprocessInitial v dcid valid).packet true v scid fs else c.preprocessInitial v dcid valid)
    split
    · exact hp
    · exact hp
    · split
      · exact hp.packet true v scid fs
      · exact hp
  | handshake v scid fs =>
    show Safe (match c.state with
      | .init | .closed _ => c
      | _ => if c.hs then c.packet false v scid fs else c)
    split
    · exact h
    · exact h
    · split
      · exact h.packet false v scid fs
      · exact h

theorem Safe.run {c : Conn} (h : Safe c) (es : List Ev) : Safe (c.run es) := by
  induction es generalizing c with
  | nil => exact h
  | cons e es ih => exact ih (h.step e)

end Neqo.Hs
