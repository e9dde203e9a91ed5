import Verif.Hs.SafeL

/-!
# C76: both endpoints agree on the version and on connection IDs
-/
namespace Neqo.Hs
open Neqo.Codec (Bytes)
open Neqo.Pkt (Version)
open Spec

/-- Whatever packets arrive, a client that reports that it is connected was given transport
parameters by TLS that say which connection IDs were used: the one it sends to, the one it
sent the first packet of this attempt to, and the one of the Retry packet that it acted on,
if there was one.  All of these come from packets that it received.  Its version is enabled,
is what the server says it is, and passes the test against downgrades. -/
theorem C76_client_validated (cfg : Config) (h : cfg.initial ∈ cfg.all) (dcid cid : Bytes) (r : Nat)
    (es : List Ev) (c : Conn) (hr : c = (Conn.newClient cfg dcid cid r).run es) (hc : c.state = .connected) :
    ∃ p, Delivered es p ∧ CidsOk c p ∧ VersionOk cfg c.version p ∧ c.version ∈ cfg.all ∧
      (∃ d, p.odcid = some d ∧ AttemptTo dcid es d) ∧
      (∀ scid, p.rscid = some scid → ∃ tok d, Ev.retry scid tok d ∈ es ∧ p.odcid = some d ∧ scid ≠ d ∧ tok ≠ []) ∧
      (∃ v key d valid fs, Ev.initial v key c.pathCid d valid fs ∈ es) := by
  have k := run_inv h dcid cid r es
  rw [← hr] at k
  obtain ⟨p, hd, hch⟩ := k.conn hc
  have hs := k.late (.inr (.inr hc))
  obtain ⟨s, hs⟩ := Option.isSome_iff_exists.mp hs
  obtain ⟨hp, he⟩ := k.remoteCid s hs
  refine ⟨p, hd, ⟨by rw [hp, ← hs]; exact hch.iscid, hch.odcid, hch.rscid⟩, by rw [← k.cfg]; exact hch.version,
    k.ver, ?_, ?_, by rw [hp]; exact he⟩
  · rw [hch.odcid]; exact k.odcid
  · intro scid hsc
    rw [hch.rscid] at hsc
    cases hre : c.retry with
    | none => rw [hre] at hsc; cases hsc
    | some x =>
      obtain ⟨tok, s'⟩ := x
      rw [hre] at hsc
      cases hsc
      obtain ⟨d, q1, q2, q3, q4⟩ := k.retry tok s' hre
      exact ⟨tok, d, q1, by rw [hch.odcid]; exact q2, q3, q4⟩

/-- If TLS does its work, so that each side gets the transport parameters that the other
sent, then a client that is connected and the server that it is connected to have the same
version and know the same connection IDs, and a Retry packet was used for both or for
neither.  The version is the server's favourite among those that are compatible with what
the client tried first, or, if that attempt was given up because of a Version Negotiation
packet, among those compatible with the client's own favourite among all the versions of
the server: an attacker who forges packets cannot bring about a worse choice. -/
theorem C76_agreement (cfg : Config) (h : cfg.initial ∈ cfg.all) (dcid cid : Bytes) (r : Nat) (es : List Ev)
    (v0 : Version) (sAll : List Version) (scid : Bytes) (r' : Nat) (ret : Option (Bytes × Bytes × Bytes))
    (es' : List Ev) (c s : Conn)
    (hr : c = (Conn.newClient cfg dcid cid r).run es)
    (hr' : s = (Conn.newServer ⟨v0, sAll⟩ scid r' ret).run es')
    (toClient : ∀ p, Delivered es p → p = s.tps.loc)
    (toServer : ∀ p, Delivered es' p → p = c.tps.loc)
    (hs : s.hs = true) (hc : c.state = .connected) :
    c.version = s.version ∧
    c.pathCid = scid ∧
    RetryAgreed ret c s ∧
    (Agreed cfg.initial cfg.all sAll c.version ∨
      ∃ q, Best cfg.all (wires sAll) q ∧ Agreed q cfg.all sAll c.version) := by
  have k := run_inv h dcid cid r es
  rw [← hr] at k
  obtain ⟨rr, hloc⟩ := k.tloc
  have k' := server_inv v0 sAll scid r' ret (versionInfo true c.tps.cfg rr) es' (by
    intro p hp
    rw [toServer p hp, hloc])
  rw [← hr'] at k'
  obtain ⟨p, hd, hch⟩ := k.conn hc
  have hp := toClient p hd
  obtain ⟨w1, w2⟩ := k'.hs hs
  obtain ⟨b1, b2, b3⟩ := k'.tps.chosen w2
  have hsome := k.late (.inr (.inr hc))
  obtain ⟨sc, hsc⟩ := Option.isSome_iff_exists.mp hsome
  obtain ⟨hpc, _⟩ := k.remoteCid sc hsc
  have hver := hch.version
  unfold VersionOk at hver
  rw [hp, b3] at hver
  dsimp only at hver
  obtain ⟨e1, e2⟩ := hver
  have hv : s.tps.cfg.initial = c.version := wire_inj e1
  have hv0 : c.tps.cfg.initial = v0 := wire_inj b1
  have hagree : Agreed v0 cfg.all sAll c.version := by
    obtain ⟨f1, f2, bf, af, f3, f4⟩ := best_filter b2
    rw [hv] at f1 f2 f3
    have f2' := (client_offer c.tps.cfg rr c.version).mp f2
    rw [k.tall] at f2'
    refine ⟨(compatible_iff _ _).mp f1, f2'.1, by rw [f3]; simp, bf, af, f3, ?_⟩
    intro u hu hh
    refine f4 u hu ⟨(compatible_iff _ _).mpr hh.1, ?_⟩
    rw [client_offer, k.tall, hv0]
    exact ⟨hh.2, hh.1⟩
  have hswap : ∀ q, Compatible q c.version → Agreed q cfg.all sAll c.version := by
    intro q hq
    obtain ⟨g1, g2, g3, bf, af, g4, g5⟩ := hagree
    refine ⟨hq, g2, g3, bf, af, g4, ?_⟩
    intro u hu hh
    exact g5 u hu ⟨g1.trans (hq.symm.trans hh.1), hh.2⟩
  refine ⟨by rw [w1, hv], ?_, ?_, ?_⟩
  · have : some sc = some scid := by
      rw [← hsc, ← hch.iscid, hp]; exact k'.iscid
    rw [hpc]; exact Option.some.inj this
  · have ho := hch.odcid
    have hrs := hch.rscid
    rw [hp, k'.odcid] at ho
    rw [hp, k'.rscid] at hrs
    cases hret : ret with
    | none =>
      rw [hret] at ho hrs
      refine ⟨?_, ho⟩
      cases hx : c.retry with
      | none => rfl
      | some x => rw [hx] at hrs; cases hrs
    | some x =>
      obtain ⟨o, a, d⟩ := x
      rw [hret] at ho hrs
      refine ⟨ho.symm, ?_⟩
      cases hx : c.retry with
      | none => rw [hx] at hrs; cases hrs
      | some x =>
        obtain ⟨tok, sc'⟩ := x
        rw [hx] at hrs
        cases hrs
        exact ⟨tok, rfl⟩
  · rw [k.cfg] at e2
    rcases e2 with e2 | ⟨q, hq, hqc⟩
    · exact .inl (hswap _ e2)
    · refine .inr ⟨q, ?_, hswap q hqc⟩
      obtain ⟨bf, af, g1, g2, g3⟩ := hq
      have hmem : ∀ u : Version, u.wire ∈ (versionInfo false ⟨v0, sAll⟩ r').other ++ [s.tps.cfg.initial.wire] ↔
          u.wire ∈ wires sAll := by
        intro u
        rw [List.mem_append, server_offer, List.mem_singleton, wire_mem]
        constructor
        · rintro (hx | hx)
          · exact hx
          · rw [wire_inj hx, hv]; exact hagree.2.2.1
        · exact fun hx => .inl hx
      exact ⟨bf, af, g1, (hmem q).mp g2, fun u hu hx => g3 u hu ((hmem u).mpr hx)⟩

/-! ## Both can connect -/

theorem agreed_exists {v0 : Version} {cAll sAll : List Version} (h1 : v0 ∈ cAll) (h2 : v0 ∈ sAll) (r : Nat) :
    ∃ v, (⟨v0, sAll⟩ : Config).preferredCompatible (versionInfo true ⟨v0, cAll⟩ r).other = some v := by
  cases hp : (⟨v0, sAll⟩ : Config).preferredCompatible (versionInfo true ⟨v0, cAll⟩ r).other with
  | some v => exact ⟨v, rfl⟩
  | none =>
    exfalso
    refine findPreferred_none hp v0 ?_ ?_
    · exact List.mem_filter.mpr ⟨h2, (compatible_iff _ _).mpr (.refl v0)⟩
    · rw [client_offer]; exact ⟨h1, .refl v0⟩

/-- The parameters of the server after it has chosen. -/
def sentBy (v0 v : Version) (sAll : List Version) (r : Nat) (scid dcid : Bytes) : Params :=
  { odcid := some dcid, iscid := some scid,
    versions := some { versionInfo false ⟨v0, sAll⟩ r with current := v.wire } }

/-- What the server receives. -/
def toServer (v0 : Version) (cAll : List Version) (dcid cid : Bytes) (r : Nat) (v : Version) : List Ev :=
  [.initial v0 dcid cid dcid true
     [some ⟨some { iscid := some cid, versions := some (versionInfo true ⟨v0, cAll⟩ r) }, true, false⟩],
   .handshake v cid [some ⟨none, true, true⟩]]

/-- What the client receives. -/
def toClient (v0 v : Version) (sAll : List Version) (r : Nat) (scid dcid cid : Bytes) : List Ev :=
  [.start, .initial v dcid scid cid true [some ⟨none, true, false⟩],
   .handshake v scid [some ⟨some (sentBy v0 v sAll r scid dcid), true, true⟩]]

theorem handle_choose {h : Handler} {p : Params} {vi lv : VInfo} {v : Version} (h1 : h.client = false)
    (h2 : h.selected = false) (h3 : p.versions = some vi) (h4 : vi.current = h.cfg.initial.wire)
    (h5 : h.cfg.preferredCompatible vi.other = some v) (h6 : h.loc.versions = some lv)
    (h7 : lv.current = h.cfg.initial.wire) :
    h.handle p = .ok { h with
      cfg := { h.cfg with initial := v }, selected := true,
      loc := { h.loc with versions := some { lv with current := v.wire } }, remote := some p } := by
  have hv : v ∈ h.cfg.all := (List.mem_filter.mp (findPreferred_some h5).mem).1
  unfold Handler.handle Handler.compatibleUpgrade
  rw [if_neg (by simp [h2]), h3]
  dsimp only
  rw [if_neg (by simp [h1]), if_neg (by simp [h4]), h5]
  dsimp only
  by_cases hne : v ≠ h.cfg.initial
  · rw [if_pos hne, Config.setInitial, if_pos hv, h6]
  · rw [if_neg hne]
    have e : v = h.cfg.initial := Decidable.not_not.mp hne
    have e2 : ({ lv with current := v.wire } : VInfo) = lv := by rw [e, ← h7]
    have e3 : ({ h.loc with versions := some lv } : Params) = h.loc := by rw [← h6]
    have e4 : ({ h.cfg with initial := v } : Config) = h.cfg := by rw [e]
    dsimp only
    rw [e2, e3, e4]

theorem server_connects {v0 v : Version} {cAll sAll : List Version} (h2 : v0 ∈ sAll) {r r' : Nat}
    (hv : (⟨v0, sAll⟩ : Config).preferredCompatible (versionInfo true ⟨v0, cAll⟩ r).other = some v)
    (dcid cid scid : Bytes) (s : Conn)
    (hs : s = (Conn.newServer ⟨v0, sAll⟩ scid r' none).run (toServer v0 cAll dcid cid r v)) :
    s.state = .connected ∧ s.hs = true ∧ s.version = v ∧ s.tps.loc = sentBy v0 v sAll r' scid dcid := by
  let k1 := initServer (fun _ => none) v0 dcid
  let k2 := initServer k1 v dcid
  let loc1 : Params := { odcid := some dcid, iscid := some scid, versions := some (versionInfo false ⟨v0, sAll⟩ r') }
  let p : Params := { iscid := some cid, versions := some (versionInfo true ⟨v0, cAll⟩ r) }
  let t1 : Handler := ⟨false, ⟨v0, sAll⟩, false, loc1, none⟩
  let t2 : Handler := ⟨false, ⟨v, sAll⟩, true, sentBy v0 v sAll r' scid dcid, some p⟩
  let c1 : Conn := ⟨false, .waitInitial, ⟨v0, sAll⟩, v0, v0, t1, scid, none, some dcid, none, [], k1, false⟩
  let c2 : Conn := { c1 with tps := t2 }
  let c3 : Conn := ⟨false, .waitInitial, ⟨v0, sAll⟩, v, v, t2, scid, none, some dcid, none, [], k2, true⟩
  let c4 : Conn := { c3 with state := .handshaking, remoteCid := some cid, pathCid := cid }
  have hkey : k1 v0 = some dcid := by simp [k1, initServer, initKeys]
  have hkv : (k2 v).isNone = false := by
    cases hx : k1 v with
    | none => simp [k2, initServer, hx, initKeys]
    | some x => simp [k2, initServer, hx]
  have e1 : (Conn.newServer ⟨v0, sAll⟩ scid r' none).preprocessInitial v0 dcid true = c1 := by
    unfold Conn.preprocessInitial
    rw [if_pos (by simp [Conn.newServer, Conn.new]), if_neg (by simp [Conn.newServer, Conn.new, h2])]
    rfl
  have e2 : c1.handleParams (some p) = .ok c2 := by
    have := handle_choose (h := t1) (p := p) (vi := versionInfo true ⟨v0, cAll⟩ r)
      (lv := versionInfo false ⟨v0, sAll⟩ r') (v := v) rfl rfl rfl rfl hv rfl rfl
    have hx : c1.tps = t1 := rfl
    simp only [Conn.handleParams, hx, this]
    rfl
  have e3 : c2.secrets v0 true = .ok c3 := by
    unfold Conn.secrets Conn.compatibleUpgrade
    rw [if_pos (by simp [c2, t2]), if_pos (.inl rfl)]
    show (match (if c1.cver ≠ v ∧ (k2 c1.cver).isSome ∧ (k2 v).isNone then
      Except.error HErr.versionNegotiation else .ok { c2 with version := v, cver := v, keys := k2 }) with
      | Except.error e => Except.error e | Except.ok c => Except.ok { c with hs := true }) = _
    rw [if_neg (by simp [hkv])]
  have e4 : (Conn.newServer ⟨v0, sAll⟩ scid r' none).step
      (.initial v0 dcid cid dcid true [some ⟨some p, true, false⟩]) = c4 := by
    unfold Conn.step
    dsimp only
    rw [e1]
    show (if k1 v0 = some dcid then c1.packet true v0 cid [some ⟨some p, true, false⟩] else c1) = c4
    rw [if_pos hkey]
    have : c1.frames true v0 [some ⟨some p, true, false⟩] = .ok c3 := by
      simp only [Conn.frames, Conn.inputCrypto, Conn.follow]
      rw [if_neg (by simp [c1])]
      simp only [Conn.handshake, e2, Conn.complete]
      rw [if_neg (by simp)]
      simp only [e3]
    rw [Conn.packet, this]
    rfl
  have e5 : c4.step (.handshake v cid [some ⟨none, true, true⟩]) = { c4 with state := .connected } := by
    have hc : c4.setConnected = .ok { c4 with state := .connected } := by
      have a1 : c4.validateCids = .ok () := by simp [Conn.validateCids, c4, c3, t2, p]
      have a2 : c4.validateVersions = .ok () := by simp [Conn.validateVersions, c4, c3, t2, p]
      rw [Conn.setConnected, a1, a2]
      rfl
    have : c4.frames false v [some ⟨none, true, true⟩] = .ok { c4 with state := .connected } := by
      simp only [Conn.frames, Conn.inputCrypto, Conn.follow]
      rw [if_neg (by simp [c4, c3])]
      simp only [Conn.handshake, Conn.handleParams, Conn.complete]
      rw [if_pos ⟨rfl, by simp [c4]⟩, hc]
      rfl
    show c4.packet false v cid [some ⟨none, true, true⟩] = _
    rw [Conn.packet, this]
    rfl
  have : s = { c4 with state := .connected } := by
    rw [hs, ← e5, ← e4]
    rfl
  rw [this]
  exact ⟨rfl, rfl, rfl, rfl⟩

theorem client_connects {v0 v : Version} {i : Version} {cAll sAll : List Version} (h1 : v0 ∈ cAll) (h2 : v0 ∈ sAll)
    {r r' : Nat}
    (hv : (⟨v0, sAll⟩ : Config).preferredCompatible (versionInfo true ⟨v0, cAll⟩ r).other = some v)
    (hi : i = v0 ∨ Best cAll (wires sAll) v0)
    (dcid cid scid : Bytes) (c : Conn)
    (hs : c = ({ Conn.newClient ⟨v0, cAll⟩ dcid cid r with cfg := ⟨i, cAll⟩ }).run (toClient v0 v sAll r' scid dcid cid)) :
    c.state = .connected ∧ c.version = v ∧
      c.tps.loc = { iscid := some cid, versions := some (versionInfo true ⟨v0, cAll⟩ r) } := by
  have hb := findPreferred_some hv
  have hm := List.mem_filter.mp hb.mem
  dsimp only at hm
  have hc : Compatible v0 v := (compatible_iff _ _).mp hm.2
  have ho := (client_offer ⟨v0, cAll⟩ r v).mp hb.offered
  have hin : v ∈ (⟨v0, cAll⟩ : Config).compatible := List.mem_filter.mpr ⟨ho.1, (compatible_iff _ _).mpr hc⟩
  have hany : (⟨v0, cAll⟩ : Config).compatible.any (· == v) = true := by
    rw [List.any_eq_true]; exact ⟨v, hin, by simp⟩
  have hkey : initKeys (fun _ => none) (⟨v0, cAll⟩ : Config).compatible dcid v = some dcid := by
    rw [initKeys, if_pos hin]
  -- the test for downgrades
  have hver : compatible i v = true ∨ ∃ q, findPreferred cAll ((versionInfo false ⟨v0, sAll⟩ r').other ++ [v.wire]) = some q ∧
      compatible q v = true := by
    rcases hi with hi | hi
    · subst hi; exact .inl hm.2
    · refine .inr ⟨v0, findPreferred_best ?_, hm.2⟩
      obtain ⟨bf, af, g1, g2, g3⟩ := hi
      have hmem : ∀ u : Version, u.wire ∈ (versionInfo false ⟨v0, sAll⟩ r').other ++ [v.wire] ↔ u.wire ∈ wires sAll := by
        intro u
        rw [List.mem_append, server_offer, List.mem_singleton, wire_mem]
        constructor
        · rintro (hx | hx)
          · exact hx
          · rw [wire_inj hx]; exact hm.1
        · exact fun hx => .inl hx
      exact ⟨bf, af, g1, (hmem v0).mpr g2, fun u hu hx => g3 u hu ((hmem u).mp hx)⟩
  let k := initKeys (fun _ => none) (⟨v0, cAll⟩ : Config).compatible dcid
  let loc : Params := { iscid := some cid, versions := some (versionInfo true ⟨v0, cAll⟩ r) }
  let p := sentBy v0 v sAll r' scid dcid
  let t1 : Handler := ⟨true, ⟨v0, cAll⟩, false, loc, none⟩
  let c1 : Conn := ⟨true, .waitInitial, ⟨i, cAll⟩, v0, v0, t1, cid, none, some dcid, none, dcid, k, false⟩
  let c2 : Conn := { c1 with version := v, cver := v, hs := true }
  let c3 : Conn := { c2 with state := .handshaking, remoteCid := some scid, pathCid := scid }
  have e0 : ({ Conn.newClient ⟨v0, cAll⟩ dcid cid r with cfg := ⟨i, cAll⟩ } : Conn).step .start = c1 := rfl
  have hup : ∀ x y b, (⟨true, .waitInitial, ⟨i, cAll⟩, x, y, t1, cid, none, some dcid, none, dcid, k, b⟩ :
      Conn).compatibleUpgrade v =
        .ok ⟨true, .waitInitial, ⟨i, cAll⟩, v, v, t1, cid, none, some dcid, none, dcid, k, b⟩ := by
    intro x y b
    unfold Conn.compatibleUpgrade
    rw [if_pos (.inl rfl)]
    show (if y ≠ v ∧ (k y).isSome ∧ (k v).isNone then _ else _) = _
    rw [if_neg (by simp [k, hkey])]
  have hfol : c1.follow true v = .ok { c1 with version := v, cver := if v = v0 then v0 else v } := by
    unfold Conn.follow
    by_cases hx : v = v0
    · subst hx
      rw [if_neg (by simp [c1]), if_pos rfl]
    · rw [if_pos ⟨rfl, rfl, hx⟩, if_neg hx]
      exact hup _ _ _
  have e1 : c1.step (.initial v dcid scid cid true [some ⟨none, true, false⟩]) = c3 := by
    show (if k v = some dcid then c1.packet true v scid [some ⟨none, true, false⟩] else c1) = c3
    rw [if_pos hkey]
    have : c1.frames true v [some ⟨none, true, false⟩] = .ok c2 := by
      simp only [Conn.frames, Conn.inputCrypto, hfol, Conn.handshake, Conn.handleParams, Conn.complete]
      rw [if_neg (by simp)]
      simp only [Conn.secrets]
      rw [if_pos (by simp [c1]), hup]
    rw [Conn.packet, this]
    rfl
  let t4 : Handler := { t1 with selected := true, cfg := ⟨v, cAll⟩, remote := some p }
  have e2 : ∃ t4 : Handler, t1.handle p = .ok t4 ∧ t4.loc = loc ∧ t4.remote = some p := by
    unfold Handler.handle Handler.compatibleUpgrade
    simp only [t1, p, sentBy, ofWire_wire, hany]
    simp
  obtain ⟨t4, e2, e3, e4⟩ := e2
  let c4 : Conn := { c3 with tps := t4 }
  have e5 : c3.step (.handshake v scid [some ⟨some p, true, true⟩]) = { c4 with state := .connected } := by
    have hc : c4.setConnected = .ok { c4 with state := .connected } := by
      have a1 : c4.validateCids = .ok () := by
        simp [Conn.validateCids, c4, c3, c2, c1, e4, p, sentBy]
      have a2 : c4.validateVersions = .ok () := by
        simp only [Conn.validateVersions, c4, c3, c2, c1, e4, p, sentBy]
        rw [if_neg (by simp), if_neg (by simp)]
        rcases hver with hx | ⟨q, hq, hx⟩
        · rw [if_pos hx]
        · simp only [Config.preferred, hq, hx, if_true]
          split <;> rfl
      rw [Conn.setConnected, a1, a2]
      rfl
    have : c3.frames false v [some ⟨some p, true, true⟩] = .ok { c4 with state := .connected } := by
      simp only [Conn.frames, Conn.inputCrypto, Conn.follow]
      rw [if_neg (by simp)]
      have hp : c3.handleParams (some p) = .ok c4 := by
        have hx : c3.tps = t1 := rfl
        simp only [Conn.handleParams, hx, e2]
        rfl
      simp only [Conn.handshake, hp, Conn.complete]
      rw [if_pos ⟨rfl, by simp [c4, c3]⟩, hc]
      rfl
    show c3.packet false v scid [some ⟨some p, true, true⟩] = _
    rw [Conn.packet, this]
    rfl
  have : c = { c4 with state := .connected } := by
    rw [hs, ← e5, ← e1, ← e0]
    rfl
  rw [this]
  exact ⟨rfl, rfl, e3⟩

theorem best_agreed {v0 v : Version} {cAll sAll : List Version} {r : Nat}
    (hv : (⟨v0, sAll⟩ : Config).preferredCompatible (versionInfo true ⟨v0, cAll⟩ r).other = some v) :
    Agreed v0 cAll sAll v := by
  obtain ⟨f1, f2, bf, af, f3, f4⟩ := best_filter (findPreferred_some hv)
  have f2' := (client_offer ⟨v0, cAll⟩ r v).mp f2
  dsimp only at f3
  refine ⟨(compatible_iff _ _).mp f1, f2'.1, by rw [f3]; simp, bf, af, f3, ?_⟩
  intro u hu hh
  exact f4 u hu ⟨(compatible_iff _ _).mpr hh.1, (client_offer ⟨v0, cAll⟩ r u).mpr ⟨hh.2, hh.1⟩⟩

/-- If the server knows the version that the client tries first, then the two can connect:
there are packets, each with what the other side sends, that bring both to the state in which
`C76_agreement` says what they agree on. -/
theorem C76_connects {v0 : Version} {cAll sAll : List Version} (h1 : v0 ∈ cAll) (h2 : v0 ∈ sAll)
    (dcid cid scid : Bytes) (r r' : Nat) :
    ∃ v es es' c s, Agreed v0 cAll sAll v ∧
      c = (Conn.newClient ⟨v0, cAll⟩ dcid cid r).run es ∧
      s = (Conn.newServer ⟨v0, sAll⟩ scid r' none).run es' ∧
      (∀ p, Delivered es p → p = s.tps.loc) ∧ (∀ p, Delivered es' p → p = c.tps.loc) ∧
      s.hs = true ∧ c.state = .connected ∧ s.state = .connected ∧ c.version = v ∧ s.version = v := by
  obtain ⟨v, hv⟩ := agreed_exists h1 h2 r
  obtain ⟨a1, a2, a3, a4⟩ := server_connects (r' := r') h2 hv dcid cid scid _ rfl
  obtain ⟨b1, b2, b3⟩ := client_connects (i := v0) (r' := r') h1 h2 hv (.inl rfl) dcid cid scid _ rfl
  refine ⟨v, _, _, _, _, best_agreed hv, rfl, rfl, ?_, ?_, a2, b1, a1, b2, a3⟩
  · intro p hp
    rw [a4]
    obtain ⟨e, he, t, ht, hp⟩ := hp
    simp only [toClient, List.mem_cons, List.not_mem_nil, or_false] at he
    rcases he with rfl | rfl | rfl
    · cases ht
    · simp [tlsOf] at ht; rw [ht] at hp; cases hp
    · simp [tlsOf] at ht; rw [ht] at hp; exact (Option.some.inj hp).symm
  · intro p hp
    show p = _
    refine Eq.trans ?_ b3.symm
    obtain ⟨e, he, t, ht, hp⟩ := hp
    simp only [toServer, List.mem_cons, List.not_mem_nil, or_false] at he
    rcases he with rfl | rfl
    · simp [tlsOf] at ht; rw [ht] at hp; exact (Option.some.inj hp).symm
    · simp [tlsOf] at ht; rw [ht] at hp; cases hp

/-- If the server does not know the version that the client tries first, but another one that
the client has enabled, then the client changes to its favourite among those of the server,
and again the two can connect.  `g` is the version that the server adds to its list so that
clients learn to ignore unknown versions. -/
theorem C76_connects_after_negotiation {i q : Version} {cAll sAll : List Version} (hi : i ∈ cAll) (hni : i ∉ sAll)
    (hq : Best cAll (wires sAll) q) (dcid cid scid : Bytes) (r r' g : Nat) (hg : g % 2 = 0) (hg0 : g ≠ 0)
    (f : Fresh) :
    ∃ v es es' c s, Agreed q cAll sAll v ∧
      c = (Conn.newClient ⟨i, cAll⟩ dcid cid r).run (.start :: .vn dcid (wires sAll ++ [g]) f :: es) ∧
      s = (Conn.newServer ⟨q, sAll⟩ scid r' none).run es' ∧
      (∀ p, Delivered es p → p = s.tps.loc) ∧ (∀ p, Delivered es' p → p = c.tps.loc) ∧
      s.hs = true ∧ c.state = .connected ∧ s.state = .connected ∧ c.version = v ∧ s.version = v := by
  have hgw : ∀ u : Version, u.wire ≠ g := by
    intro u he
    subst he
    revert hg
    cases u <;> decide
  have hmem : ∀ u : Version, u.wire ∈ wires sAll ++ [g] ↔ u.wire ∈ wires sAll := by
    intro u
    simp [hgw u]
  have hq' : Best cAll (wires sAll ++ [g]) q := by
    obtain ⟨bf, af, g1, g2, g3⟩ := hq
    exact ⟨bf, af, g1, (hmem q).mpr g2, fun u hu hx => g3 u hu ((hmem u).mp hx)⟩
  have hs : q ∈ sAll := wire_mem.mp hq.offered
  have h0 : (0 : Nat) ∉ wires sAll ++ [g] := by
    intro hx
    rcases List.mem_append.mp hx with hx | hx
    · obtain ⟨u, _, hu⟩ := List.mem_map.mp hx
      revert hu
      cases u <;> decide
    · exact hg0 (List.mem_singleton.mp hx).symm
  have hvn : ((Conn.newClient ⟨i, cAll⟩ dcid cid r).step .start).step (.vn dcid (wires sAll ++ [g]) f) =
      { Conn.newClient ⟨q, cAll⟩ f.dcid f.cid f.r with cfg := ⟨i, cAll⟩ } := by
    show (({ Conn.newClient ⟨i, cAll⟩ dcid cid r with state := .waitInitial } : Conn).inputVn dcid
      (wires sAll ++ [g]) f) = _
    unfold Conn.inputVn
    rw [if_pos ⟨rfl, rfl⟩, if_neg (by
      rintro (hx | hx | hx | hx | hx)
      · simp at hx
      · exact hni (wire_mem.mp ((hmem i).mp hx))
      · exact h0 hx
      · exact hx rfl
      · cases hx)]
    unfold Conn.versionNegotiation
    have : (({ Conn.newClient ⟨i, cAll⟩ dcid cid r with state := .waitInitial } : Conn).cfg).preferred
        (wires sAll ++ [g]) = some q := findPreferred_best hq'
    rw [this]
    dsimp only
    rw [if_neg (by
      intro (hx : i = q)
      rw [hx] at hni
      exact hni hs), Config.new, if_pos (by exact hq.mem)]
    dsimp only
    rw [Config.setInitial, if_pos (by exact hi)]
    rfl
  obtain ⟨v, hv⟩ := agreed_exists hq.mem hs f.r
  obtain ⟨a1, a2, a3, a4⟩ := server_connects (r' := r') hs hv f.dcid f.cid scid _ rfl
  obtain ⟨b1, b2, b3⟩ := client_connects (i := i) (r' := r') hq.mem hs hv (.inr hq) f.dcid f.cid scid _ rfl
  rw [← hvn] at b1 b2 b3
  refine ⟨v, toClient q v sAll r' scid f.dcid f.cid, _, _, _, best_agreed hv, rfl, rfl, ?_, ?_, a2, b1, a1, b2, a3⟩
  · intro p hp
    rw [a4]
    obtain ⟨e, he, t, ht, hp⟩ := hp
    simp only [toClient, List.mem_cons, List.not_mem_nil, or_false] at he
    rcases he with rfl | rfl | rfl
    · cases ht
    · simp [tlsOf] at ht; rw [ht] at hp; cases hp
    · simp [tlsOf] at ht; rw [ht] at hp; exact (Option.some.inj hp).symm
  · intro p hp
    refine Eq.trans ?_ b3.symm
    obtain ⟨e, he, t, ht, hp⟩ := hp
    simp only [toServer, List.mem_cons, List.not_mem_nil, or_false] at he
    rcases he with rfl | rfl
    · simp [tlsOf] at ht; rw [ht] at hp; exact (Option.some.inj hp).symm
    · simp [tlsOf] at ht; rw [ht] at hp; cases hp

/-! ## Nothing that arrives makes an endpoint panic -/

/-- Whatever packets arrive and whatever TLS reports, the assertions about versions hold, at a
client and at a server. -/
theorem C76_no_panic (cfg : Config) (h : cfg.initial ∈ cfg.all) (es : List Ev) :
    (∀ dcid cid r, ((Conn.newClient cfg dcid cid r).run es).state ≠ .closed .panic) ∧
    (∀ cid r ret, ((Conn.newServer cfg cid r ret).run es).state ≠ .closed .panic) := by
  refine ⟨fun dcid cid r => (Safe.run ⟨rfl, h, by simp [Conn.newClient, Conn.new]⟩ es).state, fun cid r ret => ?_⟩
  refine (Safe.run ⟨?_, ?_, ?_⟩ es).state
  · cases ret <;> rfl
  · cases ret <;> exact h
  · cases ret <;> simp [Conn.newServer, Conn.new]

/-! ## What the code does not do -/

/-- A client acts on a Version Negotiation packet although it has acted on one before
(RFC 9000 §6.2 says that it MUST discard it): an attacker who sees its packets can send it
from one version to the other and back without end. -/
theorem C76_second_negotiation_acted_on :
    let c := (Conn.newClient ⟨.v1, [.v2, .v1]⟩ [1] [9] 0).run
      [.start, .vn [1] [Version.v2.wire] ⟨[2], [8], 0⟩, .start]
    let c' := c.run [.vn [2] [Version.v1.wire] ⟨[3], [7], 0⟩, .start]
    c.state = .waitInitial ∧ c.version = .v2 ∧ c.odcid = some [2] ∧
    c'.state = .waitInitial ∧ c'.version = .v1 ∧ c'.odcid = some [3] := by
  decide +kernel

/-- A client that changed to a version that is not compatible with its first one, and then
gets a Retry packet, does not derive new keys for the version that it uses: it goes on with
the keys of the old connection ID, while the server uses the new one.  The connection cannot
be set up. -/
theorem C76_retry_after_negotiation_wrong_keys :
    let c := (Conn.newClient ⟨.v1, [.v1, .draft29]⟩ [1] [9] 0).run
      [.start, .vn [1] [Version.draft29.wire] ⟨[2], [8], 0⟩, .start, .retry [5] [6] [2]]
    c.version = .draft29 ∧ c.retry = some ([6], [5]) ∧ c.pathCid = [5] ∧ c.keys .draft29 = some [2] := by
  decide +kernel

/-- Without a Version Negotiation packet, the keys are the right ones after a Retry. -/
theorem C76_retry_keys (cfg : Config) (h : cfg.initial ∈ cfg.all) (dcid cid : Bytes) (r : Nat)
    (scid tok : Bytes) (hs : scid ≠ dcid) (ht : tok ≠ []) :
    let c := (Conn.newClient cfg dcid cid r).run [.start, .retry scid tok dcid]
    c.retry = some (tok, scid) ∧ c.pathCid = scid ∧ c.keys c.version = some scid := by
  have hm : cfg.initial ∈ cfg.compatible := List.mem_filter.mpr ⟨h, (compatible_iff _ _).mpr (.refl _)⟩
  have : (Conn.newClient cfg dcid cid r).run [.start, .retry scid tok dcid] =
      ({ Conn.newClient cfg dcid cid r with state := .waitInitial } : Conn).inputRetry scid tok dcid := rfl
  rw [this]
  unfold Conn.inputRetry
  rw [if_pos ⟨rfl, rfl⟩, if_neg (by simp [Conn.newClient, Conn.new]), if_neg ht]
  show _ ∧ _ ∧ _
  simp only [Conn.newClient, Conn.new]
  rw [if_neg (by simp), if_neg hs]
  exact ⟨rfl, rfl, by simp [initKeys, hm]⟩

example : (⟨.v1, [.v2, .v1]⟩ : Config).initial ∈ (⟨.v1, [.v2, .v1]⟩ : Config).all := by decide

/-- A client processes Initial packets from the server with another source connection ID than
that of the first one (RFC 9000 §7.2 says that it MUST discard them): here, the second one
brings the secrets. -/
theorem C76_other_source_accepted :
    let c := (Conn.newClient ⟨.v1, [.v1]⟩ [1] [9] 0).run
      [.start, .initial .v1 [1] [4] [9] true [some ⟨none, false, false⟩]]
    let c' := c.step (.initial .v1 [1] [5] [9] true [some ⟨none, true, false⟩])
    c.pathCid = [4] ∧ c.state = .waitVersion ∧ c'.pathCid = [4] ∧ c'.state = .handshaking := by
  decide +kernel

/-! ## Examples -/

example : Best [.v2, .v1] (wires [.draft29, .v1]) .v1 := ⟨[.v2], [], rfl, by decide, by decide⟩

/-- `C76_connects` meets the hypotheses of `C76_client_validated` and `C76_agreement`. -/
example : ∃ es, ((Conn.newClient ⟨.v1, [.v2, .v1]⟩ [1] [9] 0).run es).state = .connected ∧
    ((Conn.newClient ⟨.v1, [.v2, .v1]⟩ [1] [9] 0).run es).version = .v2 :=
  ⟨toClient .v1 .v2 [.v2, .v1] 0 [7] [1] [9], by decide +kernel⟩

/-- With a Retry. -/
example :
    let c := (Conn.newClient ⟨.v1, [.v1]⟩ [1] [9] 0).run
      [.start, .retry [5] [6] [1], .initial .v1 [5] [7] [9] true [some ⟨none, true, false⟩],
       .handshake .v1 [7] [some ⟨some ((Conn.newServer ⟨.v1, [.v1]⟩ [7] 0 (some ([1], [9], [5]))).tps.loc), true, true⟩]]
    c.state = .connected ∧ c.retry = some ([6], [5]) := by decide +kernel

end Neqo.Hs
