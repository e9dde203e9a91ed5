import Verif.Server.Spec
import Verif.Token.Props

/-!
# C78: a server passes datagrams to the right connections
-/
namespace Neqo.Srv
open Neqo.Codec (Bytes beBytes)
open Neqo.Pkt (Version Ty Public PErr)
open Spec

variable {C : Type}

theorem fromByte_known (t : UInt8) (v : Version) : Ty.fromByte t v ≠ .otherVersion := by
  unfold Ty.fromByte
  dsimp only
  generalize (t - _) &&& 3 = x
  by_cases h0 : x = 0
  · rw [if_pos h0]; decide
  rw [if_neg h0]
  by_cases h1 : x = 1
  · rw [if_pos h1]; decide
  rw [if_neg h1]
  by_cases h2 : x = 2
  · rw [if_pos h2]; decide
  rw [if_neg h2]; decide

/-- What packets with a long header have. -/
theorem decode_fields (cid : Bytes → Option (Bytes × Bytes)) (exp : Nat) (other : Bool) (n : Nat) (scone : Option Nat)
    (data : Bytes) (p : Public) (rest : Bytes) (h : Pkt.decodeInner cid exp other n scone data = .ok (p, rest)) :
    p.ty = .short ∨ p.ty = .versionNegotiation ∨
      ∃ scid w, p.scid = some scid ∧ p.version = some w ∧ p.dcid.length < 256 ∧ scid.length < 256 ∧ w < 2 ^ 32 ∧
        (p.ty = .otherVersion ∧ Version.ofWire w = none ∨ p.ty ≠ .otherVersion ∧ ∃ v, Version.ofWire w = some v ∧ p.version = some v.wire ∧
          p.dcid.length ≤ 20 ∧ scid.length ≤ 20) := by
  induction n generalizing scone data with
  | zero => cases h
  | succ n ih =>
    unfold Pkt.decodeInner at h
    simp only [bind] at h
    obtain ⟨⟨first, d⟩, h1, h⟩ := Except.bind_eq_ok.mp h
    simp only at h
    split at h
    · obtain ⟨⟨dcid, d2⟩, h2, h⟩ := Except.bind_eq_ok.mp h
      simp only at h
      split at h
      · cases h
      · simp only [pure, Except.pure, Except.ok.injEq, Prod.mk.injEq] at h
        obtain ⟨rfl, rfl⟩ := h
        exact .inl rfl
    · obtain ⟨⟨version, d2⟩, h2, h⟩ := Except.bind_eq_ok.mp h
      obtain ⟨⟨dcid, d3⟩, h3, h⟩ := Except.bind_eq_ok.mp h
      obtain ⟨⟨scid, d4⟩, h4, h⟩ := Except.bind_eq_ok.mp h
      obtain ⟨e2, hv32⟩ := Pkt.decodeN4_split (Pkt.opt_ok h2)
      obtain ⟨e3, hdl⟩ := Pkt.decodeVec1_split (Pkt.opt_ok h3)
      obtain ⟨e4, hsl⟩ := Pkt.decodeVec1_split (Pkt.opt_ok h4)
      simp only at h
      split at h
      · simp only [pure, Except.pure, Except.ok.injEq, Prod.mk.injEq] at h
        obtain ⟨rfl, rfl⟩ := h
        exact .inr (.inl rfl)
      split at h
      · split at h
        · cases h
        · exact ih _ _ h
      split at h
      · next hw =>
        split at h
        · simp only [pure, Except.pure, Except.ok.injEq, Prod.mk.injEq] at h
          obtain ⟨rfl, rfl⟩ := h
          exact .inr (.inr ⟨scid, version, rfl, rfl, hdl, hsl, hv32, .inl ⟨rfl, hw⟩⟩)
        · cases h
      rename_i v hv
      split at h
      · cases h
      rename_i h20
      obtain ⟨⟨token, headerLen, d5⟩, h5, h⟩ := Except.bind_eq_ok.mp h
      simp only [pure, Except.pure, Except.ok.injEq, Prod.mk.injEq] at h
      obtain ⟨rfl, rfl⟩ := h
      refine .inr (.inr ⟨scid, v.wire, rfl, rfl, hdl, hsl, Pkt.wire_lt v, .inr ⟨?_, v, Pkt.wire_of v, rfl, ?_, ?_⟩⟩)
      · exact fromByte_known _ _
      · show dcid.length ≤ 20
        omega
      · omega

theorem modify_eq_set {α : Type} (l : List α) (i : Nat) (h : i < l.length) (f : α → α) : l.modify i f = l.set i (f l[i]) := by
  apply List.ext_getElem?
  intro j
  rw [List.getElem?_modify, List.getElem?_set]
  by_cases e : i = j
  · subst e
    simp [h]
  · simp [e]

theorem find_unknown {cfg : Config C} {s : Server C} {dcid : Bytes}
    (h : s.conns.findIdx? (cfg.conn.valid · dcid) = none) : Unknown cfg s dcid := by
  rw [List.findIdx?_eq_none_iff] at h
  exact h

theorem reserved_ne {p : Public} {g : Nat} (h : g ≠ p.version.getD 0) : p.version ≠ some g := by
  intro e
  rw [e] at h
  exact h rfl

theorem vn_reaction {cfg : Config C} {s s' : Server C} {d : Dgram} {now : Nat} {p : Public} {scid : Bytes} {o : Out}
    (h : First cfg d p) (hu : Unknown cfg s p.dcid) (hs : p.scid = some scid)
    (hty : p.ty = .otherVersion ∨ p.ty = .initial ∧ ∀ v ∈ cfg.versions, p.version ≠ some v.wire)
    (hr : sendVn cfg s p scid d = (s', o)) : Reaction cfg s d now s'.conns o := by
  unfold sendVn at hr
  split at hr
  · cases hr
    exact .dropped
  · next hl =>
    cases hr
    obtain ⟨first, g, h1, h2, h3, _, h5⟩ := Pkt.C75_negotiation_written scid p.dcid (p.version.getD 0) cfg.versions
      (cfg.rnd s.ctr) (cfg.rnd (s.ctr + 1)) (cfg.rnd (s.ctr + 2)) (cfg.rnd (s.ctr + 3))
    rw [h5]
    exact .negotiated p scid first g h hu (by omega) hs hty h1 h2 (reserved_ne h3)

theorem accept_reaction {cfg : Config C} {s : Server C} {d : Dgram} {now : Nat} {p : Public} {scid : Bytes} {v : Version}
    (h : Opening cfg s d p scid v) {odcid : Option Bytes}
    (hv : cfg.av.validate cfg.cipher p.token d.src now = (match odcid with | none => .pass | some x => .validRetry x)) :
    Reaction cfg s d now (accept cfg s ⟨scid, p.dcid, p.token, v⟩ d odcid now).1.conns
      (accept cfg s ⟨scid, p.dcid, p.token, v⟩ d odcid now).2 := by
  unfold accept
  dsimp only
  cases hn : cfg.conn.new v scid p.dcid odcid now with
  | none => exact .dropped
  | some c => exact .accepted p scid v odcid c _ _ h hv hn rfl

theorem retry_reaction {cfg : Config C} {s s' : Server C} {d : Dgram} {now : Nat} {p : Public} {scid : Bytes} {v : Version} {o : Out}
    (h : Opening cfg s d p scid v) (hv : cfg.av.validate cfg.cipher p.token d.src now = .validate)
    (hr : sendRetry cfg s ⟨scid, p.dcid, p.token, v⟩ d now = (s', o)) : Reaction cfg s d now s'.conns o := by
  unfold sendRetry at hr
  split at hr
  · cases hr; exact .dropped
  · next hd =>
    have hd' : 8 ≤ p.dcid.length := Nat.le_of_not_lt hd
    generalize hg : cfg.av.generate cfg.cipher (some p.dcid) d.src now s.ctr = gen at hr
    cases gen with
    | none => cases hr; exact .dropped
    | some token =>
      dsimp only at hr
      generalize hc : cfg.genCid s.ctr = nc at hr
      cases nc with
      | none => cases hr; exact .dropped
      | some ncid =>
        dsimp only at hr
        obtain ⟨first, h1, _, h3⟩ := Pkt.C75_retry_written (cfg.tag v) v scid ncid token p.dcid (cfg.rnd s.ctr)
        rw [h3] at hr
        cases hr
        exact .retried p scid ncid token v first s.ctr h hd' hv hg h1

theorem initial_reaction {cfg : Config C} {s s' : Server C} {d : Dgram} {now : Nat} {p : Public} {scid : Bytes} {v : Version}
    {o : Out} (h : Opening cfg s d p scid v)
    (hr : handleInitial cfg s ⟨scid, p.dcid, p.token, v⟩ d now = .ok (s', o)) : Reaction cfg s d now s'.conns o := by
  unfold handleInitial at hr
  dsimp only at hr
  cases hv : cfg.av.validate cfg.cipher p.token d.src now with
  | panic => rw [hv] at hr; cases hr
  | invalid => rw [hv] at hr; cases hr; exact .dropped
  | pass =>
    rw [hv] at hr
    have := accept_reaction (odcid := none) h hv
    simp only [Except.ok.injEq] at hr
    rw [hr] at this
    exact this
  | validRetry x =>
    rw [hv] at hr
    have := accept_reaction (odcid := some x) h hv
    simp only [Except.ok.injEq] at hr
    rw [hr] at this
    exact this
  | validate =>
    rw [hv] at hr
    simp only [Except.ok.injEq] at hr
    exact retry_reaction h hv hr

theorem unsupported_true {cfg : Config C} {p : Public} (h : unsupported cfg p = .ok true) :
    p.ty = .otherVersion ∨ p.ty = .initial ∧ ∀ v ∈ cfg.versions, p.version ≠ some v.wire := by
  unfold unsupported at h
  split at h
  · next hx => exact .inl hx
  split at h
  · next hi =>
    refine .inr ⟨hi, fun v hv e => ?_⟩
    rw [Public.version?, e] at h
    simp only [Option.bind_some, Pkt.wire_of, Except.ok.injEq, decide_eq_true_eq] at h
    exact h hv
  · cases h

theorem unsupported_false {cfg : Config C} {p : Public} (h : unsupported cfg p = .ok false) (hi : p.ty = .initial) :
    ∃ v ∈ cfg.versions, p.version? = some v := by
  unfold unsupported at h
  rw [if_neg (by rw [hi]; decide), if_pos hi] at h
  cases hv : p.version? with
  | none => rw [hv] at h; cases h
  | some v =>
    rw [hv] at h
    simp only [Except.ok.injEq, decide_eq_false_iff_not, Decidable.not_not] at h
    exact ⟨v, h, rfl⟩

theorem version_wire {p : Public} {v : Version} (h : p.version? = some v) : p.version = some v.wire := by
  unfold Public.version? at h
  rw [Option.bind_eq_some_iff] at h
  obtain ⟨w, h1, h2⟩ := h
  rw [h1, Pkt.ofWire_some h2]

/-- Whatever arrives, one of these things happens: the datagram is ignored; it is passed to one
connection, which has its connection ID; a Version Negotiation or a Retry packet goes back to
where it came from; or there is a new connection.  All other connections are left alone.  An
answer and a new connection take at least 1200 bytes, and a packet that allows for them. -/
theorem C78_reaction (cfg : Config C) (s s' : Server C) (d : Dgram) (now : Nat) (o : Out)
    (h : handle cfg s d now = .ok (s', o)) : Reaction cfg s d now s'.conns o := by
  unfold handle at h
  cases hd : Pkt.decodePublic cfg.cid cfg.exp true d.data with
  | error e =>
    rw [hd] at h
    dsimp only at h
    split at h
    · cases h
    · cases h; exact .dropped
  | ok x =>
    obtain ⟨p, rest⟩ := x
    have hf : First cfg d p := ⟨rest, hd⟩
    rw [hd] at h
    dsimp only at h
    cases hi : s.conns.findIdx? (cfg.conn.valid · p.dcid) with
    | some i =>
      rw [hi] at h
      dsimp only at h
      cases h
      rw [List.findIdx?_eq_some_iff_getElem] at hi
      obtain ⟨hlt, hv, _⟩ := hi
      have := Reaction.delivered (cfg := cfg) (s := s) (now := now) p i s.conns[i] hf (List.getElem?_eq_getElem hlt) hv
      dsimp only
      rw [modify_eq_set _ _ hlt]
      exact this
    | none =>
      rw [hi] at h
      dsimp only at h
      have hu := find_unknown hi
      unfold unknown at h
      split at h
      · cases h; exact .dropped
      cases hun : unsupported cfg p with
      | error e => rw [hun] at h; cases h
      | ok b =>
        rw [hun] at h
        cases b with
        | true =>
          dsimp only at h
          cases hs : p.scid with
          | none =>
            rw [hs] at h
            dsimp only at h
            split at h
            · cases h; exact .dropped
            · cases h
          | some scid =>
            rw [hs] at h
            simp only [Except.ok.injEq] at h
            exact vn_reaction hf hu hs (unsupported_true hun) h
        | false =>
          dsimp only at h
          split at h
          · next hty =>
            obtain ⟨v, hv1, hv2⟩ := unsupported_false hun hty
            unfold newInitial at h
            split at h
            · cases h; exact .dropped
            · next hl =>
              rw [hv2] at h
              cases hs : p.scid with
              | none => rw [hs] at h; cases h
              | some scid =>
                rw [hs] at h
                dsimp only at h
                exact initial_reaction ⟨hf, hu, by omega, hty, version_wire hv2, hv1, hs⟩ h
          · cases h; exact .dropped

/-- A datagram for a known connection is passed to the connection, whatever else is in it. -/
theorem C78_delivered (cfg : Config C) (s : Server C) (d : Dgram) (now : Nat) (p : Public) (hp : First cfg d p)
    (hk : ∃ c ∈ s.conns, cfg.conn.valid c p.dcid = true) :
    ∃ i c, s.conns[i]? = some c ∧ cfg.conn.valid c p.dcid = true ∧
      handle cfg s d now = .ok ({ s with conns := s.conns.set i (cfg.conn.input c d now) }, .none) := by
  obtain ⟨rest, hd⟩ := hp
  unfold handle
  rw [hd]
  dsimp only
  cases hi : s.conns.findIdx? (cfg.conn.valid · p.dcid) with
  | none =>
    obtain ⟨c, hc, hv⟩ := hk
    rw [find_unknown hi c hc] at hv
    cases hv
  | some i =>
    dsimp only
    rw [List.findIdx?_eq_some_iff_getElem] at hi
    obtain ⟨hlt, hv, _⟩ := hi
    refine ⟨i, s.conns[i], List.getElem?_eq_getElem hlt, hv, ?_⟩
    rw [modify_eq_set _ _ hlt]

theorem decode_long {cfg : Config C} {d : Dgram} {p : Public} (hp : First cfg d p) (h1 : p.ty ≠ .short)
    (h2 : p.ty ≠ .versionNegotiation) : ∃ scid, p.scid = some scid := by
  obtain ⟨rest, hd⟩ := hp
  rcases decode_fields _ _ _ _ _ _ _ _ hd with h | h | ⟨scid, w, h, _⟩
  · exact absurd h h1
  · exact absurd h h2
  · exact ⟨scid, h⟩

/-- A client with a version that the server does not have gets a Version Negotiation packet,
which is smaller than what it sent. -/
theorem C78_negotiates (cfg : Config C) (s : Server C) (d : Dgram) (now : Nat) (p : Public) (hp : First cfg d p)
    (hu : Unknown cfg s p.dcid) (hsize : 1200 ≤ d.data.length)
    (hty : p.ty = .otherVersion ∨ p.ty = .initial ∧ ∃ v, p.version = some v.wire ∧ v ∉ cfg.versions)
    (hvs : cfg.versions.length ≤ 100) :
    ∃ s' scid first g, p.scid = some scid ∧ Pkt.Spec.Reserved g ∧ s'.conns = s.conns ∧
      handle cfg s d now = .ok (s', .dgrams [⟨d.dst, d.src,
        Pkt.Spec.vnWire first scid p.dcid (cfg.versions.map Version.wire ++ [g])⟩]) ∧
      (Pkt.Spec.vnWire first scid p.dcid (cfg.versions.map Version.wire ++ [g])).length < d.data.length := by
  have hns : p.ty ≠ .short := by
    rcases hty with h | h
    · rw [h]; decide
    · rw [h.1]; decide
  have hnv : p.ty ≠ .versionNegotiation := by
    rcases hty with h | h
    · rw [h]; decide
    · rw [h.1]; decide
  have hun : unsupported cfg p = .ok true := by
    unfold unsupported
    rcases hty with h | ⟨h, v, hv, hn⟩
    · rw [if_pos h]
    · rw [if_neg (by rw [h]; decide), if_pos h, Public.version?, hv, Option.bind_some, Pkt.wire_of]
      simp [hn]
  obtain ⟨rest, hd⟩ := hp
  rcases decode_fields _ _ _ _ _ _ _ _ hd with h | h | ⟨scid, w, hs, hw, hdl, hsl, _⟩
  · exact absurd h hns
  · exact absurd h hnv
  obtain ⟨first, g, h1, h2, h3, _, h5⟩ := Pkt.C75_negotiation_written scid p.dcid (p.version.getD 0) cfg.versions
    (cfg.rnd s.ctr) (cfg.rnd (s.ctr + 1)) (cfg.rnd (s.ctr + 2)) (cfg.rnd (s.ctr + 3))
  have hfind : s.conns.findIdx? (cfg.conn.valid · p.dcid) = none := by
    rw [List.findIdx?_eq_none_iff]
    exact hu
  refine ⟨{ s with ctr := s.ctr + 4 }, scid, first, g, hs, h2, rfl, ?_, ?_⟩
  · unfold handle
    rw [hd]
    dsimp only
    rw [hfind]
    dsimp only
    unfold unknown
    rw [if_neg hns, hun]
    dsimp only
    rw [hs]
    dsimp only
    unfold sendVn
    rw [if_neg (Nat.not_lt.mpr hsize), h5]
  · have hlen : (Pkt.Spec.vnWire first scid p.dcid (cfg.versions.map Version.wire ++ [g])).length
        = 7 + scid.length + p.dcid.length + 4 * (cfg.versions.length + 1) := by
      have hf : ∀ l : List Nat, ((l.map (beBytes 4)).flatten).length = 4 * l.length := by
        intro l
        induction l with
        | nil => rfl
        | cons x l ih => simp only [List.map_cons, List.flatten_cons, List.length_append, ih, Codec.beBytes_length,
            List.length_cons]; omega
      simp only [Pkt.Spec.vnWire, Pkt.Spec.string1, List.length_append, List.length_cons, List.length_nil, hf, List.length_map]
      omega
    omega

/-- If the server validates every address, there is a new connection only for a client that has
sent back a token that the server made in the last five seconds for its very address, and
sent there in a Retry packet. -/
theorem C78_always_validated (cfg : Config C) (s s' : Server C) (d : Dgram) (now : Nat) (o : Out)
    (issued : List Av.Spec.Issue) (ha : cfg.av.validation = .always) (hc : Av.Spec.Authentic cfg.av cfg.cipher issued)
    (hi : ∀ i ∈ issued, i.Ok cfg.av) (hp : Av.Spec.Addr.Ok d.src)
    (h : handle cfg s d now = .ok (s', o)) (hn : s.conns.length < s'.conns.length) :
    ∃ i ∈ issued, ∃ odcid, i.dcid = some odcid ∧ i.peer = d.src ∧ now ≤ i.time + 5 * Av.Spec.second := by
  have hr := C78_reaction cfg s s' d now o h
  generalize s'.conns = cs at hr hn
  cases hr with
  | dropped => omega
  | delivered p i c h hi hv => rw [List.length_set] at hn; omega
  | negotiated => omega
  | retried => omega
  | accepted p scid v odcid c c' o h hv hn ho =>
    cases odcid with
    | none =>
      rcases Av.C77_pass_genuine hc hi _ _ hp _ hv with e | ⟨e, _⟩
      · rw [ha] at e; cases e
      · rw [ha] at e; cases e
    | some x =>
      obtain ⟨i, hm, h1, h2, h3⟩ := Av.C77_retry_token_genuine hc hi _ _ hp _ _ hv
      exact ⟨i, hm, x, h1, h2, h3⟩

/-- Connections are never lost through what arrives, and at most one is new. -/
theorem C78_connections_kept (cfg : Config C) (s s' : Server C) (d : Dgram) (now : Nat) (o : Out)
    (h : handle cfg s d now = .ok (s', o)) :
    s'.conns.length ≤ s.conns.length + 1 ∧
      ∀ (i : Nat) (c : C), s.conns[i]? = some c → s'.conns[i]? = some c ∨ s'.conns[i]? = some (cfg.conn.input c d now) := by
  have hr := C78_reaction cfg s s' d now o h
  generalize s'.conns = cs at hr
  cases hr with
  | dropped => exact ⟨by omega, fun i c h => .inl h⟩
  | delivered p i c h hi hv =>
    refine ⟨by rw [List.length_set]; omega, fun j c' hj => ?_⟩
    rw [List.getElem?_set]
    have hjl := (List.getElem?_eq_some_iff.mp hj).1
    by_cases e : i = j
    · subst e
      rw [hi] at hj
      cases hj
      right
      simp [hjl]
    · left
      simp [e, hj]
  | negotiated => exact ⟨by omega, fun i c h => .inl h⟩
  | retried => exact ⟨by omega, fun i c h => .inl h⟩
  | accepted =>
    refine ⟨by simp, fun i c h => .inl ?_⟩
    rw [List.getElem?_append_left (List.getElem?_eq_some_iff.mp h).1]
    exact h

/-! ## Order -/

theorem drain_handled (cfg : Config C) (l : List (Dgram × Nat)) : ∀ (s s' : Server C) (o : Option (List Dgram))
    (rest : List (Dgram × Nat)), drain cfg l s = .ok (s', o, rest) →
    ∃ done, l = done ++ rest ∧ Handled cfg s done s' o ∧ (o = none → rest = []) := by
  induction l with
  | nil =>
    intro s s' o rest h
    cases h
    exact ⟨[], rfl, .nil s, fun _ => rfl⟩
  | cons x l ih =>
    obtain ⟨d, t⟩ := x
    intro s s' o rest h
    unfold drain at h
    cases hh : handle cfg s d t with
    | error e => rw [hh] at h; cases h
    | ok y =>
      obtain ⟨s1, o1⟩ := y
      rw [hh] at h
      cases o1 with
      | none =>
        dsimp only at h
        obtain ⟨done, h1, h2, h3⟩ := ih _ _ _ _ h
        exact ⟨(d, t) :: done, by rw [h1]; rfl, .cons _ _ _ _ _ _ _ _ hh (by simp) h2, h3⟩
      | callback n =>
        dsimp only at h
        obtain ⟨done, h1, h2, h3⟩ := ih _ _ _ _ h
        exact ⟨(d, t) :: done, by rw [h1]; rfl, .cons _ _ _ _ _ _ _ _ hh (by simp) h2, h3⟩
      | dgrams ds =>
        dsimp only at h
        cases h
        exact ⟨[(d, t)], rfl, .last _ _ _ _ _ hh, fun hx => by cases hx⟩

theorem Spec.Handled.append {cfg : Config C} {s s' s'' : Server C} {a b : List (Dgram × Nat)} {o : Option (List Dgram)}
    (h1 : Handled cfg s a s' none) (h2 : Handled cfg s' b s'' o) : Handled cfg s (a ++ b) s'' o := by
  generalize hn : (none : Option (List Dgram)) = n at h1
  induction h1 with
  | nil s => exact h2
  | last => cases hn
  | cons s s' s3 d t o rest r h ho hr ih => exact .cons _ _ _ _ _ _ _ _ h ho (ih h2 hn)

theorem handle_saved {cfg : Config C} {s s' : Server C} {d : Dgram} {t : Nat} {o : Out} (h : handle cfg s d t = .ok (s', o)) :
    s'.saved = s.saved := by
  unfold handle at h
  cases hd : Pkt.decodePublic cfg.cid cfg.exp true d.data with
  | error e =>
    rw [hd] at h
    dsimp only at h
    split at h <;> cases h
    rfl
  | ok x =>
    obtain ⟨p, rest⟩ := x
    rw [hd] at h
    dsimp only at h
    cases hi : s.conns.findIdx? (cfg.conn.valid · p.dcid) with
    | some i => rw [hi] at h; cases h; rfl
    | none =>
      rw [hi] at h
      dsimp only at h
      unfold unknown at h
      split at h
      · cases h; rfl
      cases hun : unsupported cfg p with
      | error e => rw [hun] at h; cases h
      | ok b =>
        rw [hun] at h
        cases b with
        | true =>
          dsimp only at h
          cases hs : p.scid with
          | none =>
            rw [hs] at h
            dsimp only at h
            split at h <;> cases h
            rfl
          | some scid =>
            rw [hs] at h
            simp only [Except.ok.injEq] at h
            unfold sendVn at h
            split at h <;> cases h <;> rfl
        | false =>
          dsimp only at h
          split at h
          · unfold newInitial at h
            split at h
            · cases h; rfl
            cases hs : p.scid with
            | none => rw [hs] at h; cases h
            | some scid =>
              rw [hs] at h
              cases hv : p.version? with
              | none => rw [hv] at h; cases h
              | some v =>
                rw [hv] at h
                dsimp only at h
                unfold handleInitial at h
                dsimp only at h
                generalize cfg.av.validate cfg.cipher p.token d.src t = r at h
                have hacc : ∀ odcid, (accept cfg s ⟨scid, p.dcid, p.token, v⟩ d odcid t).1.saved = s.saved := by
                  intro odcid
                  unfold accept
                  dsimp only
                  cases cfg.conn.new v scid p.dcid odcid t with
                  | none => rfl
                  | some c => rfl
                cases r with
                | panic => cases h
                | invalid => cases h; rfl
                | pass =>
                  simp only [Except.ok.injEq] at h
                  have := hacc none
                  rw [h] at this
                  exact this
                | validRetry x =>
                  simp only [Except.ok.injEq] at h
                  have := hacc (some x)
                  rw [h] at this
                  exact this
                | validate =>
                  simp only [Except.ok.injEq] at h
                  unfold sendRetry at h
                  split at h
                  · cases h; rfl
                  generalize cfg.av.generate cfg.cipher _ d.src t s.ctr = gen at h
                  cases gen with
                  | none => cases h; rfl
                  | some token =>
                    dsimp only at h
                    generalize cfg.genCid s.ctr = nc at h
                    cases nc with
                    | none => cases h; rfl
                    | some ncid =>
                      dsimp only at h
                      generalize Pkt.retry _ _ _ _ _ _ _ = rr at h
                      cases rr <;> (cases h; rfl)
          · cases h; rfl

theorem drain_saved (cfg : Config C) (l : List (Dgram × Nat)) : ∀ (s s' : Server C) (o : Option (List Dgram))
    (rest : List (Dgram × Nat)), drain cfg l s = .ok (s', o, rest) → s'.saved = s.saved := by
  induction l with
  | nil => intro s s' o rest h; cases h; rfl
  | cons x l ih =>
    obtain ⟨d, t⟩ := x
    intro s s' o rest h
    unfold drain at h
    cases hh : handle cfg s d t with
    | error e => rw [hh] at h; cases h
    | ok y =>
      obtain ⟨s1, o1⟩ := y
      have := handle_saved hh
      rw [hh] at h
      cases o1 with
      | none => exact (ih _ _ _ _ h).trans this
      | callback n => exact (ih _ _ _ _ h).trans this
      | dgrams ds => cases h; exact this

/-- Datagrams are handled in the order in which they arrive, with the time at which they
arrived, and each of them once: those that are not handled in a call, because there was
an answer to be sent first, wait for the next call. -/
theorem C78_in_order (cfg : Config C) (s s' : Server C) (ds : List Dgram) (now : Nat) (o : Option (List Dgram))
    (h : processInput cfg s ds now = .ok (s', o)) :
    ∃ done s1, s.saved ++ ds.map (·, now) = done ++ s'.saved ∧ Handled cfg s done s1 o ∧
      s'.conns = s1.conns ∧ s'.ctr = s1.ctr ∧ (o = none → s'.saved = []) := by
  unfold processInput at h
  cases hd : drain cfg s.saved s with
  | error e => rw [hd] at h; cases h
  | ok y =>
    obtain ⟨s1, o1, rest⟩ := y
    rw [hd] at h
    obtain ⟨done, h1, h2, h3⟩ := drain_handled _ _ _ _ _ _ hd
    cases o1 with
    | some x =>
      dsimp only at h
      cases h
      exact ⟨done, s1, by dsimp only; rw [h1, List.append_assoc], h2, rfl, rfl, fun hx => by cases hx⟩
    | none =>
      dsimp only at h
      cases hd2 : drain cfg (ds.map (·, now)) s1 with
      | error e => rw [hd2] at h; cases h
      | ok z =>
        obtain ⟨s2, o2, rest2⟩ := z
        rw [hd2] at h
        dsimp only at h
        cases h
        obtain ⟨done2, g1, g2, g3⟩ := drain_handled _ _ _ _ _ _ hd2
        have := h3 rfl
        subst this
        rw [List.append_nil] at h1
        exact ⟨done ++ done2, s2, by dsimp only; rw [← h1, g1, List.append_assoc], h2.append g2, rfl, rfl, g3⟩

/-- Over any number of calls, what was handled and what waits is exactly what has arrived. -/
theorem C78_nothing_lost (cfg : Config C) (calls : List Call) : ∀ (s s' : Server C), run cfg calls s = .ok s' →
    ∃ done, s.saved ++ (calls.map Call.arrivals).flatten = done ++ s'.saved := by
  induction calls with
  | nil => intro s s' h; cases h; exact ⟨[], by simp⟩
  | cons c cs ih =>
    intro s s' h
    unfold run at h
    cases hp : process cfg s c.ds c.now c.max with
    | error e => rw [hp] at h; cases h
    | ok y =>
      obtain ⟨s1, o⟩ := y
      rw [hp] at h
      dsimp only at h
      obtain ⟨done2, h2⟩ := ih _ _ h
      have : ∃ done, s.saved ++ c.arrivals = done ++ s1.saved := by
        unfold process at hp
        cases hi : processInput cfg s c.ds c.now with
        | error e => rw [hi] at hp; cases hp
        | ok z =>
          obtain ⟨s3, o3⟩ := z
          rw [hi] at hp
          obtain ⟨done, s4, g1, _⟩ := C78_in_order _ _ _ _ _ _ hi
          cases o3 with
          | some x => dsimp only at hp; cases hp; exact ⟨done, g1⟩
          | none =>
            dsimp only at hp
            split at hp
            · cases hp
            · split at hp
              · cases hp; exact ⟨done, g1⟩
              · cases hp; exact ⟨done, g1⟩
      obtain ⟨done, h1⟩ := this
      refine ⟨done ++ done2, ?_⟩
      rw [List.map_cons, List.flatten_cons, ← List.append_assoc, h1, List.append_assoc, h2, List.append_assoc]

/-! ## No panic -/

theorem handle_ok (cfg : Config C) (issued : List Av.Spec.Issue) (hc : Av.Spec.Authentic cfg.av cfg.cipher issued)
    (hi : ∀ i ∈ issued, i.Ok cfg.av) (s : Server C) (d : Dgram) (hp : Av.Spec.Addr.Ok d.src) (now : Nat) :
    ∃ s' o, handle cfg s d now = .ok (s', o) := by
  unfold handle
  cases hd : Pkt.decodePublic cfg.cid cfg.exp true d.data with
  | error e =>
    dsimp only
    rw [if_neg]
    · exact ⟨_, _, rfl⟩
    · intro he
      rw [he] at hd
      exact Pkt.decodeInner_no_panic _ _ _ _ _ _ (.inl (Nat.le_refl _)) hd
  | ok x =>
    obtain ⟨p, rest⟩ := x
    dsimp only
    cases hf : s.conns.findIdx? (cfg.conn.valid · p.dcid) with
    | some i => exact ⟨_, _, rfl⟩
    | none =>
      dsimp only
      unfold unknown
      by_cases hsh : p.ty = .short
      · rw [if_pos hsh]; exact ⟨_, _, rfl⟩
      rw [if_neg hsh]
      rcases decode_fields _ _ _ _ _ _ _ _ hd with h | h | ⟨scid, w, hs, hw, _, _, _, hv⟩
      · exact absurd h hsh
      · have hu : unsupported cfg p = .ok false := by
          unfold unsupported
          rw [if_neg (by rw [h]; decide), if_neg (by rw [h]; decide)]
        rw [hu]
        dsimp only
        rw [if_neg (by rw [h]; decide)]
        exact ⟨_, _, rfl⟩
      · have hu : ∃ b, unsupported cfg p = .ok b := by
          unfold unsupported
          rcases hv with ⟨h, _⟩ | ⟨_, v, _, h, _⟩
          · rw [if_pos h]; exact ⟨_, rfl⟩
          · split
            · exact ⟨_, rfl⟩
            split
            · rw [Public.version?, h, Option.bind_some, Pkt.wire_of]
              exact ⟨_, rfl⟩
            · exact ⟨_, rfl⟩
        obtain ⟨b, hb⟩ := hu
        rw [hb]
        cases b with
        | true => simp only [hs]; exact ⟨_, _, rfl⟩
        | false =>
          dsimp only
          by_cases hin : p.ty = .initial
          · rw [if_pos hin]
            unfold newInitial
            by_cases hl : d.data.length < 1200
            · rw [if_pos hl]; exact ⟨_, _, rfl⟩
            rw [if_neg hl]
            obtain ⟨v, _, hv2⟩ := unsupported_false hb hin
            simp only [hs, hv2]
            unfold handleInitial
            dsimp only
            have hnp := Av.C77_no_panic hc hi p.token d.src hp now
            generalize cfg.av.validate cfg.cipher p.token d.src now = r at hnp
            cases r with
            | panic => exact absurd rfl hnp
            | invalid => exact ⟨_, _, rfl⟩
            | pass => exact ⟨_, _, rfl⟩
            | validRetry x => exact ⟨_, _, rfl⟩
            | validate => exact ⟨_, _, rfl⟩
          · rw [if_neg hin]; exact ⟨_, _, rfl⟩

theorem drain_ok (cfg : Config C) (issued : List Av.Spec.Issue) (hc : Av.Spec.Authentic cfg.av cfg.cipher issued)
    (hi : ∀ i ∈ issued, i.Ok cfg.av) (l : List (Dgram × Nat)) (hl : ∀ x ∈ l, Av.Spec.Addr.Ok x.1.src) :
    ∀ s : Server C, ∃ r, drain cfg l s = .ok r := by
  induction l with
  | nil => intro s; exact ⟨_, rfl⟩
  | cons x l ih =>
    obtain ⟨d, t⟩ := x
    intro s
    obtain ⟨s', o, h⟩ := handle_ok cfg issued hc hi s d (hl _ (List.mem_cons_self ..)) t
    unfold drain
    rw [h]
    cases o with
    | none => exact ih (fun x hx => hl x (List.mem_cons_of_mem _ hx)) s'
    | callback n => exact ih (fun x hx => hl x (List.mem_cons_of_mem _ hx)) s'
    | dgrams ds => exact ⟨_, rfl⟩

theorem processInput_ok (cfg : Config C) (issued : List Av.Spec.Issue) (hc : Av.Spec.Authentic cfg.av cfg.cipher issued)
    (hi : ∀ i ∈ issued, i.Ok cfg.av) (s : Server C) (ds : List Dgram) (now : Nat)
    (h1 : ∀ x ∈ s.saved, Av.Spec.Addr.Ok x.1.src) (h2 : ∀ d ∈ ds, Av.Spec.Addr.Ok d.src) :
    ∃ r, processInput cfg s ds now = .ok r := by
  have h3 : ∀ x ∈ ds.map (·, now), Av.Spec.Addr.Ok x.1.src := by
    intro x hx
    rw [List.mem_map] at hx
    obtain ⟨d, hd, rfl⟩ := hx
    exact h2 d hd
  obtain ⟨⟨s1, o1, rest⟩, hd⟩ := drain_ok cfg issued hc hi s.saved h1 s
  unfold processInput
  rw [hd]
  cases o1 with
  | some x => exact ⟨_, rfl⟩
  | none =>
    dsimp only
    obtain ⟨⟨s2, o2, rest2⟩, hd2⟩ := drain_ok cfg issued hc hi _ h3 s1
    rw [hd2]
    exact ⟨_, rfl⟩

/-- No sequence of calls, with whatever datagrams, makes the server panic. -/
theorem C78_no_panic (cfg : Config C) (issued : List Av.Spec.Issue) (hc : Av.Spec.Authentic cfg.av cfg.cipher issued)
    (hi : ∀ i ∈ issued, i.Ok cfg.av) (calls : List Call) (hcalls : ∀ c ∈ calls, ∀ d ∈ c.ds, Av.Spec.Addr.Ok d.src) :
    ∃ s', run cfg calls Server.new = .ok s' := by
  suffices H : ∀ s : Server C, (∀ x ∈ s.saved, Av.Spec.Addr.Ok x.1.src) → ∃ s', run cfg calls s = .ok s' from
    H _ (by simp [Server.new])
  induction calls with
  | nil => intro s _; exact ⟨_, rfl⟩
  | cons c cs ih =>
    intro s hs
    have hc1 := hcalls c (List.mem_cons_self ..)
    obtain ⟨⟨s1, o1⟩, hp⟩ := processInput_ok cfg issued hc hi s c.ds c.now hs hc1
    obtain ⟨done, s2, h1, _, _, _, h5⟩ := C78_in_order _ _ _ _ _ _ hp
    have hs1 : ∀ x ∈ s1.saved, Av.Spec.Addr.Ok x.1.src := by
      intro x hx
      have : x ∈ s.saved ++ c.ds.map (·, c.now) := by rw [h1]; exact List.mem_append_right _ hx
      rw [List.mem_append] at this
      rcases this with h | h
      · exact hs x h
      · rw [List.mem_map] at h
        obtain ⟨d, hd, rfl⟩ := h
        exact hc1 d hd
    have ih' := ih (fun c' hc' => hcalls c' (List.mem_cons_of_mem _ hc'))
    unfold run process
    rw [hp]
    cases o1 with
    | some x => exact ih' s1 hs1
    | none =>
      dsimp only
      rw [if_neg (by rw [h5 rfl]; simp)]
      cases hn : nextOutput cfg c.now c.max s1.conns none with
      | mk cs' o' =>
        cases o' with
        | none => exact ih' _ hs1
        | callback n => exact ih' _ hs1
        | dgrams ds => exact ih' _ hs1

/-! ## Output -/

/-- What the connections ask for, if none has a datagram. -/
def delays (cfg : Config C) (now max : Nat) (cs : List C) : List Nat :=
  cs.filterMap fun c => match (cfg.conn.output c now max).2 with | .callback n => some n | _ => none

theorem nextOutput_some (cfg : Config C) (now max : Nat) (cs cs' : List C) (ds : List Dgram) (cb : Option Nat)
    (h : nextOutput cfg now max cs cb = (cs', .dgrams ds)) :
    ∃ i c c', cs[i]? = some c ∧ cfg.conn.output c now max = (c', .dgrams ds) ∧
      (∀ j, j < i → ∀ b, cs[j]? = some b → ∀ x, (cfg.conn.output b now max).2 ≠ .dgrams x) ∧
      cs' = (cs.take i).map (fun b => (cfg.conn.output b now max).1) ++ c' :: cs.drop (i + 1) := by
  induction cs generalizing cb cs' with
  | nil => cases cb <;> (unfold nextOutput at h; cases h)
  | cons c cs ih =>
    unfold nextOutput at h
    cases ho : cfg.conn.output c now max with
    | mk c1 o1 =>
      rw [ho] at h
      cases o1 with
      | dgrams o =>
        dsimp only at h
        cases h
        exact ⟨0, c, c1, rfl, ho, fun j hj => absurd hj (Nat.not_lt_zero _), by simp⟩
      | none =>
        dsimp only at h
        cases hn : nextOutput cfg now max cs cb with
        | mk a b0 =>
        rw [hn] at h
        simp only [Prod.mk.injEq] at h
        obtain ⟨i, b, b', h1, h2, h3, h4⟩ := ih _ _ (by rw [hn, ← h.2])
        refine ⟨i + 1, b, b', h1, h2, ?_, ?_⟩
        · intro j hj b hb x
          cases j with
          | zero => cases hb; rw [ho]; simp
          | succ j => exact h3 j (by omega) b hb x
        · rw [← h.1, h4]
          simp [ho]
      | callback n =>
        dsimp only at h
        cases hn : nextOutput cfg now max cs (some (minDelay cb n)) with
        | mk a b0 =>
        rw [hn] at h
        simp only [Prod.mk.injEq] at h
        obtain ⟨i, b, b', h1, h2, h3, h4⟩ := ih _ _ (by rw [hn, ← h.2])
        refine ⟨i + 1, b, b', h1, h2, ?_, ?_⟩
        · intro j hj b hb x
          cases j with
          | zero => cases hb; rw [ho]; simp
          | succ j => exact h3 j (by omega) b hb x
        · rw [← h.1, h4]
          simp [ho]

/-- The least of some delays. -/
def Spec.Least (l : List Nat) (o : Out) : Prop :=
  l = [] ∧ o = .none ∨ ∃ n ∈ l, o = .callback n ∧ ∀ m ∈ l, n ≤ m

theorem nextOutput_none (cfg : Config C) (now max : Nat) (cs cs' : List C) (cb : Option Nat) (o : Out)
    (h : nextOutput cfg now max cs cb = (cs', o)) (ho : ∀ ds, o ≠ .dgrams ds) :
    (∀ c ∈ cs, ∀ x, (cfg.conn.output c now max).2 ≠ .dgrams x) ∧ cs' = cs.map (fun c => (cfg.conn.output c now max).1) ∧
      Least (cb.toList ++ delays cfg now max cs) o := by
  induction cs generalizing cb cs' with
  | nil =>
    cases cb with
    | none => unfold nextOutput at h; cases h; exact ⟨by simp, rfl, .inl ⟨rfl, rfl⟩⟩
    | some n =>
      unfold nextOutput at h
      cases h
      exact ⟨by simp, rfl, .inr ⟨n, by simp, rfl, by simp [delays]⟩⟩
  | cons c cs ih =>
    unfold nextOutput at h
    cases hc : cfg.conn.output c now max with
    | mk c1 o1 =>
      rw [hc] at h
      cases o1 with
      | dgrams x => dsimp only at h; cases h; exact absurd rfl (ho x)
      | none =>
        dsimp only at h
        cases hn : nextOutput cfg now max cs cb with
        | mk a b0 =>
        rw [hn] at h
        simp only [Prod.mk.injEq] at h
        obtain ⟨h1, h2, h3⟩ := ih _ _ (by rw [hn, ← h.2])
        refine ⟨?_, ?_, ?_⟩
        · intro b hb x
          rcases List.mem_cons.mp hb with rfl | hb
          · rw [hc]; simp
          · exact h1 b hb x
        · rw [← h.1, h2]
          simp [hc]
        · simpa [delays, hc] using h3
      | callback n =>
        dsimp only at h
        cases hn : nextOutput cfg now max cs (some (minDelay cb n)) with
        | mk a b0 =>
        rw [hn] at h
        simp only [Prod.mk.injEq] at h
        obtain ⟨h1, h2, h3⟩ := ih _ _ (by rw [hn, ← h.2])
        refine ⟨?_, ?_, ?_⟩
        · intro b hb x
          rcases List.mem_cons.mp hb with rfl | hb
          · rw [hc]; simp
          · exact h1 b hb x
        · rw [← h.1, h2]
          simp [hc]
        · have hdel : delays cfg now max (c :: cs) = n :: delays cfg now max cs := by simp [delays, hc]
          rw [hdel]
          rcases h3 with ⟨h3, _⟩ | ⟨m, hm, he, hle⟩
          · simp at h3
          · refine .inr ⟨m, ?_, he, ?_⟩
            · simp only [Option.toList, List.cons_append, List.nil_append, List.mem_cons] at hm
              cases cb with
              | none =>
                simp only [minDelay] at hm
                simp only [Option.toList, List.nil_append, List.mem_cons]
                exact hm
              | some k =>
                simp only [minDelay] at hm
                simp only [Option.toList, List.cons_append, List.nil_append, List.mem_cons]
                rcases hm with hm | hm
                · rcases Nat.le_total k n with hkn | hkn
                  · rw [Nat.min_eq_left hkn] at hm; exact .inl hm
                  · rw [Nat.min_eq_right hkn] at hm; exact .inr (.inl hm)
                · exact .inr (.inr hm)
            · intro x hx
              have hd : m ≤ minDelay cb n := hle _ (by simp)
              simp only [List.mem_append, List.mem_cons] at hx
              rcases hx with hx | hx | hx
              · cases cb with
                | none => simp at hx
                | some k =>
                  simp only [Option.toList, List.mem_singleton] at hx
                  simp only [minDelay] at hd
                  subst hx
                  exact Nat.le_trans hd (Nat.min_le_left _ _)
              · subst hx
                cases cb with
                | none => exact hd
                | some k => exact Nat.le_trans hd (Nat.min_le_right _ _)
              · exact hle x (List.mem_append_right _ hx)

/-- When all input is handled, the server sends what the first connection that has something to
send wants to send; if none has, it asks to be called when the first of them wants to be
called, and forgets connections that are closed, and only those. -/
theorem C78_output (cfg : Config C) (s s1 s' : Server C) (ds : List Dgram) (now max : Nat) (o : Out)
    (hi : processInput cfg s ds now = .ok (s1, none)) (h : process cfg s ds now max = .ok (s', o)) :
    (∃ i c c' out, s1.conns[i]? = some c ∧ cfg.conn.output c now max = (c', .dgrams out) ∧ o = .dgrams out ∧
      (∀ j, j < i → ∀ b, s1.conns[j]? = some b → ∀ x, (cfg.conn.output b now max).2 ≠ .dgrams x) ∧
      s'.conns = (s1.conns.take i).map (fun b => (cfg.conn.output b now max).1) ++ c' :: s1.conns.drop (i + 1)) ∨
    ((∀ c ∈ s1.conns, ∀ x, (cfg.conn.output c now max).2 ≠ .dgrams x) ∧ Least (delays cfg now max s1.conns) o ∧
      s'.conns = (s1.conns.map fun c => (cfg.conn.output c now max).1).filter fun c => !cfg.conn.closed c) := by
  unfold process at h
  rw [hi] at h
  dsimp only at h
  split at h
  · cases h
  cases hn : nextOutput cfg now max s1.conns none with
  | mk cs o' =>
    rw [hn] at h
    cases o' with
    | dgrams out =>
      dsimp only at h
      cases h
      obtain ⟨i, c, c', h1, h2, h3, h4⟩ := nextOutput_some _ _ _ _ _ _ _ hn
      exact .inl ⟨i, c, c', out, h1, h2, rfl, h3, h4⟩
    | none =>
      dsimp only at h
      cases h
      obtain ⟨h1, h2, h3⟩ := nextOutput_none _ _ _ _ _ _ _ hn (by simp)
      exact .inr ⟨h1, h3, by rw [h2]⟩
    | callback n =>
      dsimp only at h
      cases h
      obtain ⟨h1, h2, h3⟩ := nextOutput_none _ _ _ _ _ _ _ hn (by simp)
      exact .inr ⟨h1, h3, by rw [h2]⟩

end Neqo.Srv
