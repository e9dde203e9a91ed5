import Verif.Hs.Lemmas

/-! Invariants of a client. -/
namespace Neqo.Hs
open Neqo.Codec (Bytes)
open Neqo.Pkt (Version)
open Spec

/-- What a client has checked when it is connected. -/
structure Checked (c : Conn) (p : Params) : Prop where
  iscid : p.iscid = c.remoteCid
  odcid : p.odcid = c.odcid
  rscid : p.rscid = c.retry.map (·.2)
  version : VersionOk c.cfg c.version p

theorem setConnected_client {c c' : Conn} (hc : c.client = true) (h : c.setConnected = .ok c') :
    c' = c.setState .connected ∧ ∃ p, c.tps.remote = some p ∧ Checked c p := by
  unfold Conn.setConnected at h
  cases h1 : c.validateCids with
  | error e => rw [h1] at h; cases h
  | ok u =>
    rw [h1] at h; dsimp only at h
    cases h2 : c.validateVersions with
    | error e => rw [h2] at h; cases h
    | ok u2 =>
      rw [h2] at h; dsimp only at h
      cases h
      refine ⟨rfl, ?_⟩
      unfold Conn.validateCids at h1
      cases hr : c.tps.remote with
      | none => rw [hr] at h1; cases h1
      | some p =>
        refine ⟨p, rfl, ?_⟩
        rw [hr] at h1; dsimp only at h1
        by_cases a1 : c.remoteCid ≠ p.iscid
        · rw [if_pos a1] at h1; cases h1
        rw [if_neg a1, if_pos hc] at h1
        by_cases a2 : c.odcid ≠ p.odcid
        · rw [if_pos a2] at h1; cases h1
        rw [if_neg a2] at h1
        by_cases a3 : c.retry.map (·.2) ≠ p.rscid
        · rw [if_pos a3] at h1; cases h1
        refine ⟨(Decidable.not_not.mp a1).symm, (Decidable.not_not.mp a2).symm,
          (Decidable.not_not.mp a3).symm, ?_⟩
        unfold Conn.validateVersions at h2
        rw [hr] at h2; dsimp only at h2
        unfold VersionOk
        cases hv : p.versions with
        | none =>
          rw [hv] at h2; dsimp only at h2 ⊢
          by_cases a4 : c.version ≠ .v1 ∧ ¬ isDraft c.version = true
          · rw [if_pos a4] at h2; cases h2
          · revert a4
            cases c.version <;> simp [isDraft]
        | some vi =>
          rw [hv] at h2; dsimp only at h2 ⊢
          rw [if_neg (by simp [hc])] at h2
          by_cases a4 : c.version.wire ≠ vi.current
          · rw [if_pos a4] at h2; cases h2
          rw [if_neg a4] at h2
          refine ⟨(Decidable.not_not.mp a4).symm, ?_⟩
          by_cases a5 : compatible c.cfg.initial c.version = true
          · exact .inl ((compatible_iff _ _).mp a5)
          rw [if_neg a5] at h2
          cases hp : c.cfg.preferred (vi.other ++ [vi.current]) with
          | none => rw [hp] at h2; cases h2
          | some q =>
            rw [hp] at h2; dsimp only at h2
            by_cases a6 : compatible q c.version = true
            · exact .inr ⟨q, findPreferred_some hp, (compatible_iff _ _).mp a6⟩
            · rw [if_neg a6] at h2; cases h2

/-- How frames change a client. -/
structure FrameRel (ini : Bool) (pv : Version) (ts : List (Option Tls)) (c c' : Conn) : Prop where
  client : c'.client = c.client
  cfg : c'.cfg = c.cfg
  keys : c'.keys = c.keys
  odcid : c'.odcid = c.odcid
  retry : c'.retry = c.retry
  remoteCid : c'.remoteCid = c.remoteCid
  localCid : c'.localCid = c.localCid
  pathCid : c'.pathCid = c.pathCid
  tclient : c'.tps.client = c.tps.client
  tcfg : c'.tps.cfg = c.tps.cfg
  tloc : c'.tps.loc = c.tps.loc
  ver : c'.version = c.version ∨ (c'.version = pv ∧ (c.state = .waitInitial ∨ c.state = .waitVersion))
  remote : ∀ p, c'.tps.remote = some p → c.tps.remote = some p ∨ ∃ t, some t ∈ ts ∧ t.params = some p
  st : c'.state = c.state ∨ (ini = false ∧ c'.state = .connected ∧ c.state.rank < 4 ∧
    ∃ p, (c.tps.remote = some p ∨ ∃ t, some t ∈ ts ∧ t.params = some p) ∧ Checked c' p)

theorem FrameRel.refl (ini pv ts c) : FrameRel ini pv ts c c :=
  ⟨rfl, rfl, rfl, rfl, rfl, rfl, rfl, rfl, rfl, rfl, rfl, .inl rfl, fun _ h => .inl h, .inl rfl⟩

theorem Checked.congr {c c' : Conn} {p : Params} (h : Checked c p) (h1 : c'.remoteCid = c.remoteCid)
    (h2 : c'.odcid = c.odcid) (h3 : c'.retry = c.retry) (h4 : c'.cfg = c.cfg) (h5 : c'.version = c.version) :
    Checked c' p :=
  ⟨by rw [h1]; exact h.iscid, by rw [h2]; exact h.odcid, by rw [h3]; exact h.rscid,
   by rw [h4, h5]; exact h.version⟩

theorem FrameRel.trans {ini pv ts us c c1 c2} (h : FrameRel ini pv ts c c1) (k : FrameRel ini pv us c1 c2) :
    FrameRel ini pv (ts ++ us) c c2 := by
  refine ⟨k.client.trans h.client, k.cfg.trans h.cfg, k.keys.trans h.keys, k.odcid.trans h.odcid,
    k.retry.trans h.retry, k.remoteCid.trans h.remoteCid, k.localCid.trans h.localCid, k.pathCid.trans h.pathCid,
    k.tclient.trans h.tclient, k.tcfg.trans h.tcfg, k.tloc.trans h.tloc, ?_, ?_, ?_⟩
  · rcases k.ver with e | ⟨e, s⟩
    · rw [e]; exact h.ver
    · rcases h.st with e2 | ⟨_, e2, _⟩
      · rw [e2] at s; exact .inr ⟨e, s⟩
      · rw [e2] at s; simp at s
  · intro p hp
    rcases k.remote p hp with hp | ⟨t, ht, e⟩
    · rcases h.remote p hp with hp | ⟨t, ht, e⟩
      · exact .inl hp
      · exact .inr ⟨t, List.mem_append_left _ ht, e⟩
    · exact .inr ⟨t, List.mem_append_right _ ht, e⟩
  · rcases k.st with e | ⟨e0, e, er, p, hp, hk⟩
    · rcases h.st with e2 | ⟨e0, e2, er, p, hp, hk⟩
      · exact .inl (e.trans e2)
      · refine .inr ⟨e0, e.trans e2, er, p, ?_, hk.congr k.remoteCid k.odcid k.retry k.cfg ?_⟩
        · rcases hp with hp | ⟨t, ht, e⟩
          · exact .inl hp
          · exact .inr ⟨t, List.mem_append_left _ ht, e⟩
        · rcases k.ver with e3 | ⟨_, s⟩
          · exact e3
          · rw [e2] at s; simp at s
    · have er' : c.state.rank < 4 := by
        rcases h.st with e2 | ⟨_, e2, er2, _⟩
        · rw [← e2]; exact er
        · exact er2
      refine .inr ⟨e0, e, er', p, ?_, hk⟩
      rcases hp with hp | ⟨t, ht, e⟩
      · rcases h.remote p hp with hp | ⟨t, ht, e⟩
        · exact .inl hp
        · exact .inr ⟨t, List.mem_append_left _ ht, e⟩
      · exact .inr ⟨t, List.mem_append_right _ ht, e⟩

theorem upgrade_client {ini : Bool} {pv : Version} {ts} {c c' : Conn} (hc : c.client = true)
    (h : c.compatibleUpgrade pv = .ok c') : FrameRel ini pv ts c c' := by
  unfold Conn.compatibleUpgrade at h
  by_cases hs : c.state = .waitInitial ∨ c.state = .waitVersion
  · rw [if_pos hs, Conn.target, if_pos hc] at h
    dsimp only at h
    by_cases hk : c.cver ≠ pv ∧ (c.keys c.cver).isSome ∧ (c.keys pv).isNone
    · rw [if_pos hk] at h; cases h
    · rw [if_neg hk] at h
      cases h
      exact ⟨rfl, rfl, rfl, rfl, rfl, rfl, rfl, rfl, rfl, rfl, rfl, .inr ⟨rfl, hs⟩, fun _ h => .inl h, .inl rfl⟩
  · rw [if_neg hs] at h
    cases h
    exact .refl ..

theorem handle_client {h h' : Handler} {r : Params} (hc : h.client = true) (k : h.handle r = .ok h') :
    h'.client = h.client ∧ h'.cfg = h.cfg ∧ h'.loc = h.loc ∧ h'.remote = some r := by
  unfold Handler.handle at k
  cases hu : h.compatibleUpgrade r with
  | error e => rw [hu] at k; cases e <;> cases k
  | ok h1 =>
    rw [hu] at k
    cases k
    dsimp only
    unfold Handler.compatibleUpgrade at hu
    by_cases a1 : h.selected = true
    · rw [if_pos a1] at hu; cases hu; exact ⟨rfl, rfl, rfl, rfl⟩
    rw [if_neg a1] at hu
    cases hv : r.versions with
    | none => rw [hv] at hu; cases hu; exact ⟨rfl, rfl, rfl, rfl⟩
    | some vi =>
      rw [hv] at hu; dsimp only at hu
      rw [if_pos hc] at hu
      cases hw : Version.ofWire vi.current with
      | none => rw [hw] at hu; cases hu
      | some v =>
        rw [hw] at hu; dsimp only at hu
        by_cases a2 : (h.cfg.compatible.any (· == v)) = true
        · rw [if_pos a2] at hu; cases hu; exact ⟨rfl, rfl, rfl, rfl⟩
        · rw [if_neg a2] at hu; cases hu

theorem setState_connected_ne {c : Conn} (h : (c.setState .connected).state ≠ c.state) :
    (c.setState .connected).state = .connected := by
  unfold Conn.setState at h ⊢
  by_cases hs : St.rank .connected > c.state.rank
  · rw [if_pos hs]
  · rw [if_neg hs] at h; exact absurd rfl h

theorem handshake_client {ini : Bool} {pv : Version} {t : Tls} {c c' : Conn} (hc : c.client = true)
    (ht : c.tps.client = true) (h : c.handshake ini pv t = .ok c') : FrameRel ini pv [some t] c c' := by
  unfold Conn.handshake at h
  cases hg : c.handleParams t.params with
  | error e => rw [hg] at h; cases h
  | ok c1 =>
    rw [hg] at h; dsimp only at h
    have r1 : FrameRel ini pv [some t] c c1 := by
      unfold Conn.handleParams at hg
      cases hp : t.params with
      | none => rw [hp] at hg; cases hg; exact .refl ..
      | some r =>
        rw [hp] at hg; dsimp only at hg
        cases hh : c.tps.handle r with
        | error e => rw [hh] at hg; cases hg
        | ok h1 =>
          rw [hh] at hg; cases hg
          obtain ⟨q1, q2, q3, q4⟩ := handle_client ht hh
          refine ⟨rfl, rfl, rfl, rfl, rfl, rfl, rfl, rfl, q1, q2, q3, .inl rfl, ?_, .inl rfl⟩
          intro p hpp
          dsimp only at hpp
          rw [q4] at hpp
          cases hpp
          exact .inr ⟨t, List.mem_singleton.mpr rfl, hp⟩
    have hc1 : c1.client = true := r1.client.trans hc
    cases hg2 : c1.complete (t.complete && !ini) with
    | error e => rw [hg2] at h; cases h
    | ok c2 =>
      rw [hg2] at h; dsimp only at h
      have r2 : FrameRel ini pv [] c1 c2 := by
        unfold Conn.complete at hg2
        by_cases hk : (t.complete && !ini) = true ∧ c1.state ≠ .connected
        · rw [if_pos hk] at hg2
          obtain ⟨e, p, hp, hch⟩ := setConnected_client hc1 hg2
          by_cases hs : St.rank .connected > c1.state.rank
          · rw [Conn.setState, if_pos hs] at e
            subst e
            have hi : ini = false := by
              have := hk.1
              simp only [Bool.and_eq_true, Bool.not_eq_true'] at this
              exact this.2
            exact ⟨rfl, rfl, rfl, rfl, rfl, rfl, rfl, rfl, rfl, rfl, rfl, .inl rfl, fun _ h => .inl h,
              .inr ⟨hi, rfl, hs, p, .inl hp, hch.congr rfl rfl rfl rfl rfl⟩⟩
          · rw [Conn.setState, if_neg hs] at e
            subst e
            exact .refl ..
        · rw [if_neg hk] at hg2; cases hg2; exact .refl ..
      have r12 : FrameRel ini pv [some t] c c2 := by simpa using r1.trans r2
      unfold Conn.secrets at h
      by_cases hsec : t.secret ∧ (c2.client ∨ c2.tps.remote.isSome)
      · rw [if_pos hsec] at h
        cases hu : c2.compatibleUpgrade pv with
        | error e => rw [hu] at h; cases h
        | ok c3 =>
          rw [hu] at h; cases h
          have r3 : FrameRel ini pv [] c2 c3 := upgrade_client (r12.client.trans hc) hu
          have r := r12.trans r3
          rw [List.append_nil] at r
          refine ⟨r.client, r.cfg, r.keys, r.odcid, r.retry, r.remoteCid, r.localCid, r.pathCid, r.tclient, r.tcfg,
            r.tloc, r.ver, r.remote, ?_⟩
          rcases r.st with e | ⟨e0, e, er, p, hp, hch⟩
          · exact .inl e
          · exact .inr ⟨e0, e, er, p, hp, hch.congr rfl rfl rfl rfl rfl⟩
      · rw [if_neg hsec] at h; cases h
        exact r12

theorem inputCrypto_client {ini : Bool} {pv : Version} {t : Option Tls} {c c' : Conn} (hc : c.client = true)
    (ht : c.tps.client = true) (h : c.inputCrypto ini pv t = .ok c') : FrameRel ini pv [t] c c' := by
  unfold Conn.inputCrypto at h
  cases hg : c.follow ini pv with
  | error e => rw [hg] at h; cases h
  | ok c1 =>
    rw [hg] at h; dsimp only at h
    have r1 : FrameRel ini pv [] c c1 := by
      unfold Conn.follow at hg
      by_cases hk : c.client ∧ ini ∧ pv ≠ c.version
      · rw [if_pos hk] at hg; exact upgrade_client hc hg
      · rw [if_neg hk] at hg; cases hg; exact .refl ..
    cases t with
    | none => cases h; simpa using r1.trans (FrameRel.refl ini pv [none] c')
    | some t =>
      simpa using r1.trans (handshake_client (r1.client.trans hc) (r1.tclient.trans ht) h)

theorem frames_client {ini : Bool} {pv : Version} {ts : List (Option Tls)} {c c' : Conn} (hc : c.client = true)
    (ht : c.tps.client = true) (h : c.frames ini pv ts = .ok c') : FrameRel ini pv ts c c' := by
  induction ts generalizing c with
  | nil => cases h; exact .refl ..
  | cons t ts ih =>
    rw [Conn.frames] at h
    cases h1 : c.inputCrypto ini pv t with
    | error e => rw [h1] at h; cases h
    | ok c1 =>
      rw [h1] at h
      have r1 := inputCrypto_client hc ht h1
      exact r1.trans (ih (r1.client.trans hc) (r1.tclient.trans ht) h)

/-- The invariant of a client. -/
structure CInv (cf : Config) (dcid : Bytes) (es : List Ev) (c : Conn) : Prop where
  client : c.client = true
  tclient : c.tps.client = true
  cfg : c.cfg = cf
  wf : cf.initial ∈ cf.all
  tall : c.tps.cfg.all = cf.all
  tini : c.tps.cfg.initial ∈ cf.all
  tloc : ∃ r, c.tps.loc = { iscid := some c.localCid, versions := some (versionInfo true c.tps.cfg r) }
  ver : c.version ∈ cf.all
  keys : ∀ v, (c.keys v).isSome → v ∈ cf.all
  odcid : ∃ d, c.odcid = some d ∧ AttemptTo dcid es d
  retry : ∀ tok scid, c.retry = some (tok, scid) →
    ∃ d, Ev.retry scid tok d ∈ es ∧ c.odcid = some d ∧ scid ≠ d ∧ tok ≠ []
  remoteCid : ∀ scid, c.remoteCid = some scid → c.pathCid = scid ∧
    ∃ v key d valid fs, Ev.initial v key scid d valid fs ∈ es
  early : c.state = .init ∨ c.state = .waitInitial → c.remoteCid = none
  late : c.state = .waitVersion ∨ c.state = .handshaking ∨ c.state = .connected → c.remoteCid.isSome
  hs : c.hs = true → c.state ≠ .init ∧ c.state ≠ .waitInitial ∧ c.state ≠ .waitVersion
  remote : ∀ p, c.tps.remote = some p → Delivered es p
  conn : c.state = .connected → ∃ p, Delivered es p ∧ Checked c p

theorem Spec.Delivered.mono {es : List Ev} {p : Params} (h : Delivered es p) (e : Ev) : Delivered (es ++ [e]) p := by
  obtain ⟨x, hx, t, ht, k⟩ := h
  exact ⟨x, List.mem_append_left _ hx, t, ht, k⟩

theorem CInv.mono {cfg dcid es c} (h : CInv cfg dcid es c) (e : Ev) : CInv cfg dcid (es ++ [e]) c := by
  refine ⟨h.client, h.tclient, h.cfg, h.wf, h.tall, h.tini, h.tloc, h.ver, h.keys, ?_, ?_, ?_, h.early, h.late, h.hs,
    fun p hp => (h.remote p hp).mono e, ?_⟩
  · obtain ⟨d, h1, h2⟩ := h.odcid
    refine ⟨d, h1, ?_⟩
    rcases h2 with h2 | ⟨s, vs, f, h2, h3⟩
    · exact .inl h2
    · exact .inr ⟨s, vs, f, List.mem_append_left _ h2, h3⟩
  · intro tok scid hr
    obtain ⟨d, h1, h2⟩ := h.retry tok scid hr
    exact ⟨d, List.mem_append_left _ h1, h2⟩
  · intro scid hr
    obtain ⟨h1, v, k, d, b, fs, h2⟩ := h.remoteCid scid hr
    exact ⟨h1, v, k, d, b, fs, List.mem_append_left _ h2⟩
  · intro hs
    obtain ⟨p, h1, h2⟩ := h.conn hs
    exact ⟨p, h1.mono e, h2⟩

theorem CInv.fail {cfg dcid es c} (h : CInv cfg dcid es c) (e : HErr) : CInv cfg dcid es (c.fail e) := by
  unfold Conn.fail Conn.setState
  by_cases hs : (St.closed e).rank > c.state.rank
  · rw [if_pos hs]
    exact ⟨h.client, h.tclient, h.cfg, h.wf, h.tall, h.tini, h.tloc, h.ver, h.keys, h.odcid, h.retry, h.remoteCid,
      by simp, by simp, by simp, h.remote, by simp⟩
  · rw [if_neg hs]; exact h

theorem newClient_inv {cfg : Config} (h : cfg.initial ∈ cfg.all) (dcid cid : Bytes) (r : Nat) (es : List Ev) :
    CInv cfg dcid es (Conn.newClient cfg dcid cid r) := by
  refine ⟨rfl, rfl, rfl, h, rfl, h, ⟨r, rfl⟩, h, ?_, ⟨dcid, rfl, .inl rfl⟩, ?_, ?_, ?_, ?_, ?_, ?_, ?_⟩
  · intro v hv
    simp only [Conn.newClient, Conn.new, initKeys] at hv
    by_cases hk : v ∈ cfg.compatible
    · exact (List.mem_filter.mp hk).1
    · rw [if_neg hk] at hv; cases hv
  · intro tok scid hr; cases hr
  · intro scid hr; cases hr
  · exact fun _ => rfl
  · intro hs; simp [Conn.newClient, Conn.new] at hs
  · intro hs; cases hs
  · intro p hp; cases hp
  · intro hs; cases hs

theorem CInv.vn {cfg dcid es c scid vs f} (h : CInv cfg dcid es c) (hm : Ev.vn scid vs f ∈ es) :
    CInv cfg dcid es (c.inputVn scid vs f) := by
  unfold Conn.inputVn
  by_cases h1 : c.client ∧ c.state = .waitInitial
  · rw [if_pos h1]
    by_cases h2 : vs = [] ∨ c.version.wire ∈ vs ∨ 0 ∈ vs ∨ some scid ≠ c.odcid ∨ c.retry.isSome
    · rw [if_pos h2]; exact h
    · rw [if_neg h2]
      unfold Conn.versionNegotiation
      cases hp : c.cfg.preferred vs with
      | none => exact h.fail _
      | some v =>
        dsimp only
        by_cases h3 : c.version = v
        · rw [if_pos h3]; exact h.fail _
        rw [if_neg h3]
        have hv : v ∈ c.cfg.all := (findPreferred_some hp).mem
        rw [Config.new, if_pos hv]
        dsimp only
        rw [Config.setInitial, if_pos (by
          show c.cfg.initial ∈ c.cfg.all
          rw [h.cfg]; exact h.wf)]
        dsimp only
        have k := newClient_inv (cfg := { initial := v, all := c.cfg.all }) hv f.dcid f.cid f.r es
        have ha : c.cfg.all = cfg.all := by rw [h.cfg]
        refine ⟨k.client, k.tclient, ?_, h.wf, ?_, ?_, k.tloc, ?_, ?_, ?_, ?_, ?_, k.early, k.late, k.hs, k.remote, ?_⟩
        · show Config.mk c.cfg.initial c.cfg.all = cfg
          rw [h.cfg]
        · exact ha
        · show v ∈ cfg.all; rw [← ha]; exact hv
        · show v ∈ cfg.all; rw [← ha]; exact hv
        · intro u hu; rw [← ha]; exact k.keys u hu
        · exact ⟨f.dcid, rfl, .inr ⟨scid, vs, f, hm, rfl⟩⟩
        · intro tok s hr; cases hr
        · intro s hr; cases hr
        · intro hs; cases hs
  · rw [if_neg h1]; exact h

theorem CInv.retryEv {cfg dcid es c scid tok d} (h : CInv cfg dcid es c) (hm : Ev.retry scid tok d ∈ es) :
    CInv cfg dcid es (c.inputRetry scid tok d) := by
  unfold Conn.inputRetry
  by_cases h1 : c.client ∧ c.state = .waitInitial
  · rw [if_pos h1]
    by_cases h2 : c.retry.isSome = true
    · rw [if_pos h2]; exact h
    rw [if_neg h2]
    by_cases h3 : tok = []
    · rw [if_pos h3]; exact h
    rw [if_neg h3]
    cases ho : c.odcid with
    | none => exact h.fail _
    | some o =>
      dsimp only
      by_cases h4 : d ≠ o
      · rw [if_pos h4]; exact h
      rw [if_neg h4]
      by_cases h5 : scid = o
      · rw [if_pos h5]; exact h
      rw [if_neg h5]
      have hd : d = o := Decidable.not_not.mp h4
      refine ⟨h.client, h.tclient, h.cfg, h.wf, h.tall, h.tini, h.tloc, h.ver, ?_, ?_, ?_, ?_, h.early, h.late,
        h.hs, h.remote, ?_⟩
      · intro v hv
        simp only [initKeys] at hv
        by_cases hk : v ∈ c.cfg.compatible
        · rw [← h.cfg]; exact (List.mem_filter.mp hk).1
        · rw [if_neg hk] at hv; exact h.keys v hv
      · obtain ⟨x, k1, k2⟩ := h.odcid
        rw [ho] at k1
        exact ⟨x, k1, k2⟩
      · intro tok' s hr
        cases hr
        exact ⟨d, hm, by rw [hd], by rw [hd]; exact h5, h3⟩
      · intro s hr
        dsimp only at hr
        rw [h.early (.inr h1.2)] at hr; cases hr
      · intro hs
        dsimp only at hs
        rw [h1.2] at hs; cases hs
  · rw [if_neg h1]; exact h

theorem CInv.startEv {cfg dcid es c} (h : CInv cfg dcid es c) : CInv cfg dcid es c.start := by
  unfold Conn.start
  by_cases h1 : c.client ∧ c.state = .init
  · rw [if_pos h1, Conn.setState, if_pos (by rw [h1.2]; decide)]
    refine ⟨h.client, h.tclient, h.cfg, h.wf, h.tall, h.tini, h.tloc, h.ver, h.keys, h.odcid, h.retry, h.remoteCid,
      fun _ => h.early (.inl h1.2), by simp, ?_, h.remote, by simp⟩
    intro hh
    exact absurd h1.2 (h.hs hh).1
  · rw [if_neg h1]; exact h

/-- A packet that was decrypted. -/
theorem CInv.packet {cfg dcid es c ini v scid fs} (h : CInv cfg dcid es c)
    (hk : ini = true → (c.keys v).isSome)
    (hh : ini = false → c.hs = true)
    (h0 : c.state ≠ .init)
    (hm : ini = true → ∃ key d valid, Ev.initial v key scid d valid fs ∈ es)
    (hd : ∀ t p, some t ∈ fs → t.params = some p → Delivered es p) :
    CInv cfg dcid es (c.packet ini v scid fs) := by
  unfold Conn.packet
  cases hf : c.frames ini v fs with
  | error e => exact h.fail e
  | ok c1 =>
    dsimp only
    have r := frames_client h.client h.tclient hf
    have hver : c1.version ∈ cfg.all := by
      rcases r.ver with e | ⟨e, s⟩
      · rw [e]; exact h.ver
      · rw [e]
        cases ini with
        | true => exact h.keys v (hk rfl)
        | false =>
          have := h.hs (hh rfl)
          rcases s with s | s
          · exact absurd s this.2.1
          · exact absurd s this.2.2
    have hrem : ∀ p, c1.tps.remote = some p → Delivered es p := by
      intro p hp
      rcases r.remote p hp with hp | ⟨t, ht, e⟩
      · exact h.remote p hp
      · exact hd t p ht e
    have hconn : c1.state = .connected → ∃ p, Delivered es p ∧ Checked c1 p := by
      intro hs
      rcases r.st with e | ⟨_, _, _, p, hp, hch⟩
      · rw [e] at hs
        obtain ⟨p, h1, h2⟩ := h.conn hs
        refine ⟨p, h1, h2.congr r.remoteCid r.odcid r.retry r.cfg ?_⟩
        rcases r.ver with e3 | ⟨_, s⟩
        · exact e3
        · rw [hs] at s; simp at s
      · refine ⟨p, ?_, hch⟩
        rcases hp with hp | ⟨t, ht, e⟩
        · exact h.remote p hp
        · exact hd t p ht e
    have hkeys : ∀ u, (c1.keys u).isSome → u ∈ cfg.all := by rw [r.keys]; exact h.keys
    have hretry : ∀ tok s, c1.retry = some (tok, s) → ∃ d, Ev.retry s tok d ∈ es ∧ c1.odcid = some d ∧ s ≠ d ∧ tok ≠ [] := by
      rw [r.retry, r.odcid]; exact h.retry
    have hod : ∃ d, c1.odcid = some d ∧ AttemptTo dcid es d := by rw [r.odcid]; exact h.odcid
    have htl : ∃ r, c1.tps.loc = { iscid := some c1.localCid, versions := some (versionInfo true c1.tps.cfg r) } := by
      rw [r.tloc, r.localCid, r.tcfg]; exact h.tloc
    have hcl := r.client.trans h.client
    have htc := r.tclient.trans h.tclient
    have hcf := r.cfg.trans h.cfg
    have hta : c1.tps.cfg.all = cfg.all := by rw [r.tcfg]; exact h.tall
    have hti : c1.tps.cfg.initial ∈ cfg.all := by rw [r.tcfg]; exact h.tini
    unfold Conn.postprocess
    by_cases hw : c1.state = .waitInitial
    · -- the first packet
      have hcw : c.state = .waitInitial := by
        rcases r.st with e | ⟨_, e, _⟩
        · exact e.symm.trans hw
        · rw [hw] at e; cases e
      have hini : ini = true := by
        cases ini with
        | true => rfl
        | false => exact absurd hcw (h.hs (hh rfl)).2.1
      obtain ⟨key, d, valid, hm⟩ := hm hini
      rw [if_pos hw]
      dsimp only [Conn.startHandshake]
      rw [if_pos (.inl hw)]
      unfold Conn.setState
      dsimp only
      rw [if_pos (by
        rw [hw]; cases c1.hs <;> decide)]
      refine ⟨hcl, htc, hcf, h.wf, hta, hti, htl, hver, hkeys, hod, hretry, ?_, ?_, ?_, ?_, hrem, ?_⟩
      · intro s hs
        cases hs
        exact ⟨rfl, v, key, d, valid, fs, hm⟩
      · dsimp only; cases c1.hs <;> simp
      · exact fun _ => rfl
      · dsimp only; intro hx; rw [hx]; simp
      · dsimp only; cases c1.hs <;> simp
    · rw [if_neg hw]
      have hpc : ∀ s, c1.remoteCid = some s → c1.pathCid = s ∧ ∃ v key d valid fs, Ev.initial v key s d valid fs ∈ es := by
        rw [r.remoteCid, r.pathCid]; exact h.remoteCid
      have hrs : c1.state = .waitVersion ∨ c1.state = .handshaking ∨ c1.state = .connected → c1.remoteCid.isSome := by
        intro hs
        rw [r.remoteCid]
        rcases r.st with e | ⟨e0, e, er, _⟩
        · rw [e] at hs; exact h.late hs
        · -- the handshake was completed by a Handshake packet
          have := h.hs (hh e0)
          rcases hcs : c.state with _ | _ | _ | _ | _ | e'
          · exact absurd hcs this.1
          · exact absurd hcs this.2.1
          · exact absurd hcs this.2.2
          · exact h.late (.inr (.inl hcs))
          · exact h.late (.inr (.inr hcs))
          · -- closed: it cannot become connected
            rw [hcs] at er; exact absurd er (by simp [St.rank])
      by_cases hv : c1.state = .waitVersion
      · rw [if_pos (.inr hv)]
        unfold Conn.setState
        have hrs' := hrs (.inl hv)
        by_cases hr : (if c1.hs = true then St.handshaking else St.waitVersion).rank > c1.state.rank
        · rw [if_pos hr]
          have hhs : c1.hs = true := by
            cases hx : c1.hs with
            | true => rfl
            | false => rw [hx, hv] at hr; exact absurd hr (by decide)
          rw [hhs]
          exact ⟨hcl, htc, hcf, h.wf, hta, hti, htl, hver, hkeys, hod, hretry, hpc, by simp, fun _ => hrs',
            by simp, hrem, by simp⟩
        · rw [if_neg hr]
          refine ⟨hcl, htc, hcf, h.wf, hta, hti, htl, hver, hkeys, hod, hretry, hpc, ?_, fun _ => hrs', ?_, hrem, ?_⟩
          · rw [hv]; simp
          · intro hx; rw [hx, hv] at hr; exact absurd (by decide) hr
          · rw [hv]; simp
      · rw [if_neg (by simp [hw, hv])]
        have hni : c1.state ≠ .init := by
          rcases r.st with e | ⟨_, e, _⟩
          · rw [e]; exact h0
          · rw [e]; simp
        refine ⟨hcl, htc, hcf, h.wf, hta, hti, htl, hver, hkeys, hod, hretry, hpc, ?_, hrs, ?_, hrem, hconn⟩
        · rintro (hx | hx)
          · exact absurd hx hni
          · exact absurd hx hw
        · exact fun _ => ⟨hni, hw, hv⟩

theorem CInv.step {cfg dcid es c} (h : CInv cfg dcid es c) (e : Ev) : CInv cfg dcid (es ++ [e]) (c.step e) := by
  have h' := h.mono e
  have hm : e ∈ es ++ [e] := List.mem_append_right _ (List.mem_singleton.mpr rfl)
  have hd : ∀ (fs : List (Option Tls)), tlsOf e = fs.filterMap id → ∀ t p, some t ∈ fs → t.params = some p →
      Delivered (es ++ [e]) p := by
    intro fs hf t p ht hp
    refine ⟨e, hm, t, ?_, hp⟩
    rw [hf]
    exact List.mem_filterMap.mpr ⟨some t, ht, rfl⟩
  cases e with
  | start => exact h'.startEv
  | vn scid vs f => exact h'.vn hm
  | retry scid tok d => exact h'.retryEv hm
  | initial v key scid dc valid fs =>
    rw [Conn.step]
    have : c.preprocessInitial v dc valid = c := by
      rw [Conn.preprocessInitial, if_neg (by simp [h.client])]
    simp only [this]
    split
    · exact h'
    · exact h'
    · next h1 h2 =>
      by_cases hk : c.keys v = some key
      · rw [if_pos hk]
        exact h'.packet (fun _ => by rw [hk]; rfl) (by simp) (fun hx => h1 hx) (fun _ => ⟨key, dc, valid, hm⟩) (hd fs rfl)
      · rw [if_neg hk]; exact h'
  | handshake v scid fs =>
    rw [Conn.step]
    split
    · exact h'
    · exact h'
    · next h1 h2 =>
      by_cases hk : c.hs = true
      · rw [if_pos hk]
        exact h'.packet (by simp) (fun _ => hk) (fun hx => h1 hx) (by simp) (hd fs rfl)
      · rw [if_neg hk]; exact h'

theorem run_inv {cfg : Config} (h : cfg.initial ∈ cfg.all) (dcid cid : Bytes) (r : Nat) (es : List Ev) :
    CInv cfg dcid es ((Conn.newClient cfg dcid cid r).run es) := by
  have : ∀ (es pre : List Ev) (c : Conn), CInv cfg dcid pre c → CInv cfg dcid (pre ++ es) (c.run es) := by
    intro es
    induction es with
    | nil => intro pre c hc; simpa [Conn.run] using hc
    | cons e es ih =>
      intro pre c hc
      have := ih (pre ++ [e]) _ (hc.step e)
      simpa [Conn.run] using this
  simpa using this es [] _ (newClient_inv h dcid cid r [])

end Neqo.Hs
