import Verif.Hs.ClientL

/-! Invariants of a server. -/
namespace Neqo.Hs
open Neqo.Codec (Bytes)
open Neqo.Pkt (Version)
open Spec

/-- What the handler of a server looks like.  `vi` is the version information that the
client sends, `seen` whether it has been read. -/
structure HandlerOk (v0 : Version) (all : List Version) (r : Nat) (vi : VInfo) (h : Handler) : Prop where
  client : h.client = false
  hall : h.cfg.all = all
  fresh : h.selected = false → h.cfg.initial = v0 ∧ h.remote = none ∧
    h.loc.versions = some (versionInfo false ⟨v0, all⟩ r)
  chosen : h.selected = true → vi.current = v0.wire ∧
    Best (all.filter fun v => compatible v0 v) vi.other h.cfg.initial ∧
    h.loc.versions = some { versionInfo false ⟨v0, all⟩ r with current := h.cfg.initial.wire }

theorem handle_server {v0 all r vi} {h h' : Handler} {p : Params} (hp : p.versions = some vi)
    (hh : HandlerOk v0 all r vi h) (k : h.handle p = .ok h') :
    HandlerOk v0 all r vi h' ∧ h'.selected = true ∧ h'.loc.iscid = h.loc.iscid ∧ h'.loc.odcid = h.loc.odcid ∧
      h'.loc.rscid = h.loc.rscid ∧ h'.remote = some p ∧
      (h.selected = true → h'.cfg = h.cfg) := by
  unfold Handler.handle at k
  cases hu : h.compatibleUpgrade p with
  | error e => rw [hu] at k; cases e <;> cases k
  | ok h1 =>
    rw [hu] at k
    cases k
    dsimp only
    unfold Handler.compatibleUpgrade at hu
    by_cases a1 : h.selected = true
    · rw [if_pos a1] at hu; cases hu
      refine ⟨⟨hh.client, hh.hall, ?_, hh.chosen⟩, a1, rfl, rfl, rfl, rfl, fun _ => rfl⟩
      intro hs; rw [a1] at hs; cases hs
    have a1' : h.selected = false := by simpa using a1
    obtain ⟨f1, _, f3⟩ := hh.fresh a1'
    rw [if_neg a1, hp] at hu; dsimp only at hu
    rw [if_neg (by simp [hh.client])] at hu
    by_cases a2 : vi.current ≠ h.cfg.initial.wire
    · rw [if_pos a2] at hu; cases hu
    rw [if_neg a2] at hu
    have a2' : vi.current = v0.wire := by rw [← f1]; exact Decidable.not_not.mp a2
    cases hpc : h.cfg.preferredCompatible vi.other with
    | none => rw [hpc] at hu; cases hu
    | some q =>
      rw [hpc] at hu; dsimp only at hu
      have hb : Best (all.filter fun v => compatible v0 v) vi.other q := by
        have := findPreferred_some hpc
        rw [Config.compatible, hh.hall, f1] at this
        exact this
      have hq : q ∈ h.cfg.all := by rw [hh.hall]; exact (List.mem_filter.mp hb.mem).1
      by_cases a3 : q ≠ h.cfg.initial
      · rw [if_pos a3, Config.setInitial, if_pos hq, f3] at hu
        dsimp only at hu
        cases hu
        refine ⟨⟨hh.client, hh.hall, (by intro hs; cases hs), fun _ => ⟨a2', hb, rfl⟩⟩, rfl, rfl, rfl, rfl, rfl, ?_⟩
        intro hs; rw [a1'] at hs; cases hs
      · rw [if_neg a3] at hu
        cases hu
        have a3' : q = h.cfg.initial := Decidable.not_not.mp a3
        refine ⟨⟨hh.client, hh.hall, (by intro hs; cases hs), fun _ => ⟨a2', by rw [← a3']; exact hb, ?_⟩⟩,
          rfl, rfl, rfl, rfl, rfl, ?_⟩
        · dsimp only
          rw [f3, f1]
          rfl
        · exact fun _ => rfl

/-- The original destination that a server reports. -/
def reported (ret : Option (Bytes × Bytes × Bytes)) (d : Option Bytes) : Option Bytes :=
  match ret with
  | none => d
  | some (o, _, _) => some o

/-- The invariant of a server. -/
structure SInv (v0 : Version) (all : List Version) (cid : Bytes) (r : Nat) (ret : Option (Bytes × Bytes × Bytes))
    (vi : VInfo) (s : Conn) : Prop where
  client : s.client = false
  tps : HandlerOk v0 all r vi s.tps
  sel : s.tps.remote.isSome → s.tps.selected = true
  loc : s.localCid = cid
  iscid : s.tps.loc.iscid = some cid
  rscid : s.tps.loc.rscid = ret.map (·.2.2)
  odcid : s.tps.loc.odcid = reported ret s.odcid
  hs : s.hs = true → s.version = s.tps.cfg.initial ∧ s.tps.selected = true

theorem SInv.fail {v0 all cid r ret vi s} (h : SInv v0 all cid r ret vi s) (e : HErr) :
    SInv v0 all cid r ret vi (s.fail e) := by
  unfold Conn.fail Conn.setState
  split
  · exact ⟨h.client, h.tps, h.sel, h.loc, h.iscid, h.rscid, h.odcid, h.hs⟩
  · exact h

theorem SInv.setState {v0 all cid r ret vi s} (h : SInv v0 all cid r ret vi s) (st : St) :
    SInv v0 all cid r ret vi (s.setState st) := by
  unfold Conn.setState
  split
  · exact ⟨h.client, h.tps, h.sel, h.loc, h.iscid, h.rscid, h.odcid, h.hs⟩
  · exact h

theorem SInv.upgrade {v0 all cid r ret vi s s'} {pv : Version} (h : SInv v0 all cid r ret vi s)
    (k : s.compatibleUpgrade pv = .ok s') :
    SInv v0 all cid r ret vi s' ∧ s'.tps = s.tps ∧ s'.odcid = s.odcid ∧ s'.state = s.state ∧
      ((s.state = .waitInitial ∨ s.state = .waitVersion) → s'.version = s'.tps.cfg.initial) := by
  unfold Conn.compatibleUpgrade at k
  by_cases hs : s.state = .waitInitial ∨ s.state = .waitVersion
  · rw [if_pos hs, Conn.target, if_neg (by simp [h.client])] at k
    cases ho : s.odcid with
    | none => rw [ho] at k; cases k
    | some d =>
      rw [ho] at k; dsimp only at k
      generalize initServer s.keys s.tps.cfg.initial d = keys at k
      by_cases hc : s.cver ≠ s.tps.cfg.initial ∧ (keys s.cver).isSome ∧ (keys s.tps.cfg.initial).isNone
      · rw [if_pos hc] at k; cases k
      · rw [if_neg hc] at k
        cases k
        refine ⟨⟨h.client, h.tps, h.sel, h.loc, h.iscid, h.rscid, by rw [← ho]; exact h.odcid, fun hh => ⟨rfl, (h.hs hh).2⟩⟩,
          rfl, rfl, rfl, fun _ => rfl⟩
  · rw [if_neg hs] at k
    cases k
    exact ⟨h, rfl, rfl, rfl, fun hh => absurd hh hs⟩

theorem setConnected_eq {c c' : Conn} (h : c.setConnected = .ok c') : c' = c.setState .connected := by
  unfold Conn.setConnected at h
  cases h1 : c.validateCids with
  | error e => rw [h1] at h; cases h
  | ok u =>
    rw [h1] at h; dsimp only at h
    cases h2 : c.validateVersions with
    | error e => rw [h2] at h; cases h
    | ok u2 => rw [h2] at h; dsimp only at h; cases h; rfl

/-- Handshake secrets come while the version is not fixed: either there are secrets already,
or the state is still one in which the version can change. -/
def Pending (s : Conn) : Prop := s.hs = true ∨ s.state = .waitInitial ∨ s.state = .waitVersion

theorem SInv.crypto {v0 all cid r ret vi s s'} {ini : Bool} {pv : Version} {t : Option Tls}
    (h : SInv v0 all cid r ret vi s) (hpen : Pending s) (hini : ini = false → s.hs = true)
    (hd : ∀ t', t = some t' → ∀ p, t'.params = some p → p.versions = some vi)
    (k : s.inputCrypto ini pv t = .ok s') : SInv v0 all cid r ret vi s' ∧ Pending s' ∧ (s.hs = true → s'.hs = true) := by
  unfold Conn.inputCrypto at k
  rw [Conn.follow, if_neg (by simp [h.client])] at k
  dsimp only at k
  cases t with
  | none => cases k; exact ⟨h, hpen, id⟩
  | some t =>
    dsimp only at k
    unfold Conn.handshake at k
    cases hg : s.handleParams t.params with
    | error e => rw [hg] at k; cases k
    | ok s1 =>
      rw [hg] at k; dsimp only at k
      have r1 : SInv v0 all cid r ret vi s1 ∧ Pending s1 ∧ s1.hs = s.hs := by
        unfold Conn.handleParams at hg
        cases hp : t.params with
        | none => rw [hp] at hg; cases hg; exact ⟨h, hpen, rfl⟩
        | some p =>
          rw [hp] at hg; dsimp only at hg
          cases hh : s.tps.handle p with
          | error e => rw [hh] at hg; cases hg
          | ok h1 =>
            rw [hh] at hg; cases hg
            obtain ⟨q1, q2, q3, q4, q5, q6, q7⟩ := handle_server (hd t rfl p hp) h.tps hh
            refine ⟨⟨h.client, q1, fun _ => q2, h.loc, q3.trans h.iscid, q5.trans h.rscid, q4.trans h.odcid, ?_⟩,
              hpen, rfl⟩
            intro hx
            obtain ⟨w1, w2⟩ := h.hs hx
            refine ⟨?_, q2⟩
            show s.version = h1.cfg.initial
            rw [q7 w2]; exact w1
      obtain ⟨i1, p1, e1⟩ := r1
      cases hg2 : s1.complete (t.complete && !ini) with
      | error e => rw [hg2] at k; cases k
      | ok s2 =>
        rw [hg2] at k; dsimp only at k
        have r2 : SInv v0 all cid r ret vi s2 ∧ Pending s2 ∧ s2.hs = s.hs := by
          unfold Conn.complete at hg2
          by_cases hk : (t.complete && !ini) = true ∧ s1.state ≠ .connected
          · rw [if_pos hk] at hg2
            rw [setConnected_eq hg2]
            have hi : ini = false := by
              have := hk.1
              simp only [Bool.and_eq_true, Bool.not_eq_true'] at this
              exact this.2
            have hx : (s1.setState .connected).hs = s.hs := by
              unfold Conn.setState; split <;> exact e1
            exact ⟨i1.setState _, .inl (hx.trans (hini hi)), hx⟩
          · rw [if_neg hk] at hg2; cases hg2; exact ⟨i1, p1, e1⟩
        obtain ⟨i2, p2, e2⟩ := r2
        unfold Conn.secrets at k
        by_cases hsec : t.secret ∧ (s2.client ∨ s2.tps.remote.isSome)
        · rw [if_pos hsec] at k
          cases hu : s2.compatibleUpgrade pv with
          | error e => rw [hu] at k; cases k
          | ok s3 =>
            rw [hu] at k; cases k
            obtain ⟨i3, w1, w2, w3, w4⟩ := i2.upgrade hu
            have hrem : s2.tps.remote.isSome = true := by
              rcases hsec.2 with hx | hx
              · rw [i2.client] at hx; cases hx
              · exact hx
            refine ⟨⟨i3.client, i3.tps, i3.sel, i3.loc, i3.iscid, i3.rscid, i3.odcid, ?_⟩, .inl rfl, fun _ => rfl⟩
            intro _
            dsimp only
            refine ⟨?_, by rw [w1]; exact i2.sel hrem⟩
            rcases p2 with hx | hx
            · -- there are secrets already
              by_cases hy : s2.state = .waitInitial ∨ s2.state = .waitVersion
              · exact w4 hy
              · have : s3 = s2 := by
                  unfold Conn.compatibleUpgrade at hu
                  rw [if_neg hy] at hu; cases hu; rfl
                rw [this]; exact (i2.hs hx).1
            · exact w4 hx
        · rw [if_neg hsec] at k; cases k
          exact ⟨i2, p2, fun hx => by rw [e2]; exact hx⟩

theorem SInv.frames {v0 all cid r ret vi s s'} {ini : Bool} {pv : Version} {ts : List (Option Tls)}
    (h : SInv v0 all cid r ret vi s) (hpen : Pending s) (hini : ini = false → s.hs = true)
    (hd : ∀ t, some t ∈ ts → ∀ p, t.params = some p → p.versions = some vi)
    (k : s.frames ini pv ts = .ok s') : SInv v0 all cid r ret vi s' ∧ Pending s' := by
  induction ts generalizing s with
  | nil => cases k; exact ⟨h, hpen⟩
  | cons t ts ih =>
    rw [Conn.frames] at k
    cases h1 : s.inputCrypto ini pv t with
    | error e => rw [h1] at k; cases k
    | ok s1 =>
      rw [h1] at k
      obtain ⟨i1, p1, e1⟩ := h.crypto hpen hini
        (fun t' ht => hd t' (by rw [ht]; exact List.mem_cons_self)) h1
      exact ih i1 p1 (fun hi => e1 (hini hi)) (fun t' ht => hd t' (List.mem_cons_of_mem _ ht)) k

/-- Between packets. -/
structure SInv' (v0 : Version) (all : List Version) (cid : Bytes) (r : Nat) (ret : Option (Bytes × Bytes × Bytes))
    (vi : VInfo) (s : Conn) : Prop extends SInv v0 all cid r ret vi s where
  pend : s.state = .init ∨ (∃ e, s.state = .closed e) ∨ Pending s

theorem SInv'.packet {v0 all cid r ret vi s} {ini : Bool} {pv : Version} {scid : Bytes} {ts : List (Option Tls)}
    (h : SInv' v0 all cid r ret vi s) (h0 : s.state ≠ .init) (h1 : ∀ e, s.state ≠ .closed e)
    (hini : ini = false → s.hs = true)
    (hd : ∀ t, some t ∈ ts → ∀ p, t.params = some p → p.versions = some vi) :
    SInv' v0 all cid r ret vi (s.packet ini pv scid ts) := by
  have hpen : Pending s := by
    rcases h.pend with hx | ⟨e, hx⟩ | hx
    · exact absurd hx h0
    · exact absurd hx (h1 e)
    · exact hx
  unfold Conn.packet
  cases hf : s.frames ini pv ts with
  | error e =>
    dsimp only
    refine ⟨h.toSInv.fail e, ?_⟩
    right; left
    refine ⟨e, ?_⟩
    unfold Conn.fail Conn.setState
    rw [if_pos]
    rcases hx : s.state with _ | _ | _ | _ | _ | e'
    all_goals first | (simp [St.rank]; done) | (exact absurd hx (h1 _))
  | ok s1 =>
    dsimp only
    obtain ⟨i1, p1⟩ := h.toSInv.frames hpen hini hd hf
    unfold Conn.postprocess
    have i2 : SInv v0 all cid r ret vi (if s1.state = .waitInitial then s1.startHandshake scid else s1) ∧
        Pending (if s1.state = .waitInitial then s1.startHandshake scid else s1) := by
      by_cases hx : s1.state = .waitInitial
      · rw [if_pos hx]
        exact ⟨⟨i1.client, i1.tps, i1.sel, i1.loc, i1.iscid, i1.rscid, i1.odcid, i1.hs⟩, p1⟩
      · rw [if_neg hx]; exact ⟨i1, p1⟩
    generalize (if s1.state = .waitInitial then s1.startHandshake scid else s1) = s2 at i2 ⊢
    obtain ⟨i2, p2⟩ := i2
    dsimp only
    by_cases hx : s2.state = .waitInitial ∨ s2.state = .waitVersion
    · rw [if_pos hx]
      refine ⟨i2.setState _, .inr (.inr ?_)⟩
      unfold Conn.setState
      cases hh : s2.hs with
      | true =>
        by_cases hr : (if true = true then St.handshaking else St.waitVersion).rank > s2.state.rank
        · rw [if_pos hr]; exact .inl rfl
        · rw [if_neg hr]; exact .inl hh
      | false =>
        by_cases hr : (if false = true then St.handshaking else St.waitVersion).rank > s2.state.rank
        · rw [if_pos hr]; exact .inr (.inr rfl)
        · rw [if_neg hr]; exact .inr hx
    · rw [if_neg hx]; exact ⟨i2, .inr (.inr p2)⟩

theorem SInv'.pre {v0 all cid r ret vi s v d b} (h : SInv' v0 all cid r ret vi s) :
    SInv' v0 all cid r ret vi (s.preprocessInitial v d b) := by
  unfold Conn.preprocessInitial
  by_cases h1 : ¬ s.client ∧ s.state = .init
  · rw [if_pos h1]
    by_cases h2 : ¬ b ∨ v ∉ s.cfg.all
    · rw [if_pos h2]; exact h
    rw [if_neg h2]
    have hset : ∀ s' : Conn, s'.state = .init → s'.setState .waitInitial = { s' with state := .waitInitial } := by
      intro s' hx
      rw [Conn.setState, if_pos (by rw [hx]; decide)]
    dsimp only
    rw [hset { s with keys := initServer s.keys v d, odcid := some d } h1.2]
    dsimp only
    cases hr : ret with
    | none =>
      have : s.tps.loc.rscid = none := by rw [h.rscid, hr]; rfl
      rw [this]
      dsimp only [Option.isNone]
      rw [if_pos rfl]
      refine ⟨⟨h.client, ⟨h.tps.client, h.tps.hall, h.tps.fresh, h.tps.chosen⟩, h.sel, h.loc, h.iscid, ?_, rfl, h.hs⟩,
        .inr (.inr (.inr (.inl rfl)))⟩
      rfl
    | some x =>
      obtain ⟨o, a, d'⟩ := x
      have : s.tps.loc.rscid = some d' := by rw [h.rscid, hr]; rfl
      rw [this]
      dsimp only [Option.isNone]
      rw [if_neg (by simp)]
      refine ⟨⟨h.client, h.tps, h.sel, h.loc, h.iscid, this, ?_, h.hs⟩, .inr (.inr (.inr (.inl rfl)))⟩
      have := h.odcid
      rw [hr] at this
      exact this
  · rw [if_neg h1]; exact h

theorem SInv'.step {v0 all cid r ret vi s} (h : SInv' v0 all cid r ret vi s) (e : Ev)
    (hd : ∀ t ∈ tlsOf e, ∀ p, t.params = some p → p.versions = some vi) :
    SInv' v0 all cid r ret vi (s.step e) := by
  have hf : ∀ (fs : List (Option Tls)), tlsOf e = fs.filterMap id →
      ∀ t, some t ∈ fs → ∀ p, t.params = some p → p.versions = some vi := by
    intro fs hf t ht
    refine hd t ?_
    rw [hf]
    exact List.mem_filterMap.mpr ⟨some t, ht, rfl⟩
  cases e with
  | start =>
    show SInv' v0 all cid r ret vi s.start
    rw [Conn.start, if_neg (by simp [h.client])]; exact h
  | vn scid vs f =>
    show SInv' v0 all cid r ret vi (s.inputVn scid vs f)
    rw [Conn.inputVn, if_neg (by simp [h.client])]; exact h
  | retry scid tok d =>
    show SInv' v0 all cid r ret vi (s.inputRetry scid tok d)
    rw [Conn.inputRetry, if_neg (by simp [h.client])]; exact h
  | initial v key scid dc valid fs =>
    rw [Conn.step]
    have h' := h.pre (v := v) (d := dc) (b := valid)
    generalize s.preprocessInitial v dc valid = s' at h'
    split
    · exact h'
    · exact h'
    · next h1 h2 =>
      by_cases hk : s'.keys v = some key
      · rw [if_pos hk]
        exact h'.packet (fun hx => h1 hx) (fun e hx => h2 e hx) (by simp) (hf fs rfl)
      · rw [if_neg hk]; exact h'
  | handshake v scid fs =>
    rw [Conn.step]
    split
    · exact h
    · exact h
    · next h1 h2 =>
      by_cases hk : s.hs = true
      · rw [if_pos hk]
        exact h.packet (fun hx => h1 hx) (fun e hx => h2 e hx) (fun _ => hk) (hf fs rfl)
      · rw [if_neg hk]; exact h

theorem newServer_inv (v0 : Version) (all : List Version) (cid : Bytes) (r : Nat)
    (ret : Option (Bytes × Bytes × Bytes)) (vi : VInfo) :
    SInv' v0 all cid r ret vi (Conn.newServer ⟨v0, all⟩ cid r ret) := by
  have hok : ∀ loc : Params, loc.versions = some (versionInfo false ⟨v0, all⟩ r) →
      HandlerOk v0 all r vi { client := false, cfg := ⟨v0, all⟩, selected := false, loc, remote := none } := by
    intro loc hl
    exact ⟨rfl, rfl, fun _ => ⟨rfl, rfl, hl⟩, by intro hs; cases hs⟩
  cases ret with
  | none =>
    refine ⟨⟨rfl, hok _ rfl, (by intro h; cases h), rfl, rfl, rfl, rfl, (by intro h; cases h)⟩, .inl rfl⟩
  | some x =>
    obtain ⟨o, a, d⟩ := x
    refine ⟨⟨rfl, hok _ rfl, (by intro h; cases h), rfl, rfl, rfl, rfl, (by intro h; cases h)⟩, .inl rfl⟩

theorem server_inv (v0 : Version) (all : List Version) (cid : Bytes) (r : Nat)
    (ret : Option (Bytes × Bytes × Bytes)) (vi : VInfo) (es : List Ev)
    (hd : ∀ p, Delivered es p → p.versions = some vi) :
    SInv' v0 all cid r ret vi ((Conn.newServer ⟨v0, all⟩ cid r ret).run es) := by
  have : ∀ (es : List Ev) (s : Conn), (∀ e ∈ es, ∀ t ∈ tlsOf e, ∀ p, t.params = some p → p.versions = some vi) →
      SInv' v0 all cid r ret vi s → SInv' v0 all cid r ret vi (s.run es) := by
    intro es
    induction es with
    | nil => intro s _ h; exact h
    | cons e es ih =>
      intro s hd h
      exact ih _ (fun x hx => hd x (List.mem_cons_of_mem _ hx)) (h.step e (hd e List.mem_cons_self))
  refine this es _ ?_ (newServer_inv ..)
  intro e he t ht p hp
  exact hd p ⟨e, he, t, ht, hp⟩

end Neqo.Hs
