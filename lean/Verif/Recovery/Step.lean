import Verif.Recovery.Inv

/-! # Every call preserves the invariant -/
namespace Neqo.Rec

variable {m clock : Nat} {next : SpaceId → Nat} {clean : Bool} {x : Nat} {s : Sys}

theorem total_mark (la now ld : Nat) (ps : List Pkt) :
    total outLen (ps.map (markLost la now ld)) + total flightLen ((ps.filter (newlyLost la now ld)).map (markLost la now ld)) = total outLen ps := by
  induction ps with
  | nil => rfl
  | cons p ps ih =>
    rw [List.map_cons, total_cons, total_cons]
    by_cases h : newlyLost la now ld p = true
    · rw [List.filter_cons_of_pos h, List.map_cons, total_cons]
      have hm : markLost la now ld p = { p with lost := some now } := by unfold markLost; rw [if_pos (of_decide_eq_true h)]
      have hl : p.lost = none := (of_decide_eq_true h).2
      have e1 : outLen (markLost la now ld p) = 0 := by rw [hm]; unfold outLen Pkt.outstanding; simp
      have e2 : flightLen (markLost la now ld p) = outLen p := by
        rw [hm]; unfold outLen flightLen Pkt.outstanding Pkt.inFlight; simp [hl]
      omega
    · rw [List.filter_cons_of_neg h]
      have hm : markLost la now ld p = p := by
        unfold markLost; rw [if_neg]; intro hc; exact h (decide_eq_true hc)
      rw [hm]; omega

theorem total_mark_num (la now ld : Nat) (ps : List Pkt) :
    total lostNum (ps.map (markLost la now ld)) = total lostNum ps + (ps.filter (newlyLost la now ld)).length ∧
    total lostBytes (ps.map (markLost la now ld)) = total lostBytes ps + (((ps.filter (newlyLost la now ld)).map (markLost la now ld)).map (·.len)).sum := by
  induction ps with
  | nil => exact ⟨rfl, rfl⟩
  | cons p ps ih =>
    rw [List.map_cons, total_cons, total_cons, total_cons, total_cons, ih.1, ih.2]
    by_cases h : newlyLost la now ld p = true
    · rw [List.filter_cons_of_pos h, List.map_cons, List.map_cons, List.length_cons, List.sum_cons, markLost_len]
      have hm : markLost la now ld p = { p with lost := some now } := by unfold markLost; rw [if_pos (of_decide_eq_true h)]
      have hl : p.lost = none := (of_decide_eq_true h).2
      have e1 : lostNum (markLost la now ld p) = 1 := by rw [hm]; rfl
      have e2 : lostNum p = 0 := by unfold lostNum; rw [hl]; rfl
      have e3 : lostBytes (markLost la now ld p) = p.len := by rw [hm]; rfl
      have e4 : lostBytes p = 0 := by unfold lostBytes; rw [hl]; rfl
      omega
    · rw [List.filter_cons_of_neg h]
      have hm : markLost la now ld p = p := by
        unfold markLost; rw [if_neg]; intro hc; exact h (decide_eq_true hc)
      rw [hm]; omega

/-- Replacing a space whose packets evolve. -/
theorem Core.evolSpace {id : SpaceId} {sp sp' : Space} (hs : s.spaces id = some sp)
    (he : ∀ q ∈ sp'.pkts, (∃ p ∈ sp.pkts, Evol p q) ∨ next id ≤ q.pn) :
    EvolAll next s.pkts (s.setSpace id (some sp')).pkts := by
  intro i q hq
  rw [setSpace_pkts] at hq
  by_cases hi : i = id
  · subst hi
    rw [if_pos rfl] at hq
    rw [pkts_some hs]
    exact he q hq
  · rw [if_neg hi] at hq
    exact .inl ⟨q, hq, .refl q⟩

theorem Core.keepSpace {id : SpaceId} {sp sp' : Space} (hs : s.spaces id = some sp)
    (he : ∀ q ∈ sp'.pkts, ∃ p ∈ sp.pkts, q.primary = p.primary ∧ q.epoch = p.epoch) :
    Keep s.pkts (s.setSpace id (some sp')).pkts := by
  intro i q hq
  rw [setSpace_pkts] at hq
  by_cases hi : i = id
  · subst hi
    rw [if_pos rfl] at hq
    rw [pkts_some hs]
    exact he q hq
  · rw [if_neg hi] at hq
    exact ⟨q, hq, rfl, rfl⟩

theorem appSent_setSpace {id : SpaceId} {sp sp' : Space} (hs : s.spaces id = some sp) (h : sp'.largestAckedSent = sp.largestAckedSent) :
    (s.setSpace id (some sp')).appSent = s.appSent := by
  unfold Sys.appSent Sys.setSpace
  simp only
  by_cases hi : SpaceId.app = id
  · subst hi
    rw [if_pos rfl, hs]
    exact h
  · rw [if_neg hi]

/-- The conditions on which spaces there are. -/
theorem spaces_setSpace {id : SpaceId} {sp sp' : Space} (hs : s.spaces id = some sp) (i : SpaceId) :
    (s.setSpace id (some sp')).spaces i = none ↔ s.spaces i = none := by
  unfold Sys.setSpace
  simp only
  by_cases hi : i = id
  · subst hi
    rw [if_pos rfl, hs]
    simp
  · rw [if_neg hi]

/-- Loss detection in one space. -/
theorem Core.detect (h : Core m clock next clean x s) {id : SpaceId} {sp : Space} (hs : s.spaces id = some sp) {now : Nat} (hc : clock ≤ now)
    (ld cd : Nat) (first prev : Option Nat) (pto : Nat) :
    ∃ sp' cc', sp.detectLost now ld cd = .ok (sp', detectedLost sp now ld cd) ∧ s.cc.onLost first prev pto (detectedLost sp now ld cd) = .ok cc' ∧
      Core m now next clean x { s.setSpace id (some sp') with cc := cc' } ∧
      Moves next s [] (detectedLost sp now ld cd) [] (s.setSpace id (some sp')) ∧
      sp'.pkts = detectedPkts sp now ld cd ∧ sp'.largestAcked = sp.largestAcked ∧ sp'.largestAckedSent = sp.largestAckedSent ∧
      (tot lostNum (s.setSpace id (some sp')) ≤ tot lostNum s + (detectedLost sp now ld cd).length ∧
       tot lostBytes (s.setSpace id (some sp')) ≤ tot lostBytes s + ((detectedLost sp now ld cd).map (·.len)).sum) ∧ cc'.mtu = s.cc.mtu := by
  have hsp := h.sp id sp hs
  obtain ⟨sp', h1, h2, h3, h4, h5, h6⟩ := hsp.detectLost (ld := ld) (cd := cd) hc
  have hsub : (detectedLost sp now ld cd).Sublist sp'.pkts := by
    rw [h3]; unfold detectedLost detectedPkts
    exact List.Sublist.map _ List.filter_sublist
  -- a newly lost packet was tracked and not lost
  have hfrom : ∀ l ∈ detectedLost sp now ld cd, ∃ p ∈ sp.pkts, p.pn = l.pn ∧ p.lost = none ∧ p.pt = l.pt ∧ l.lost ≠ none := by
    intro l hl
    unfold detectedLost at hl
    obtain ⟨p, hp, rfl⟩ := List.mem_map.mp hl
    obtain ⟨hp1, hp2⟩ := List.mem_filter.mp hp
    refine ⟨p, (List.mem_filter.mp hp1).1, (markLost_pn ..).symm, (of_decide_eq_true hp2).2, (markLost_pt ..).symm, ?_⟩
    unfold markLost
    rw [if_pos (of_decide_eq_true hp2)]
    simp
  have hspace : ∀ l ∈ detectedLost sp now ld cd, l.pt.space = id := by
    intro l hl
    obtain ⟨p, hp, _, _, e, _⟩ := hfrom l hl
    rw [← e]; exact hsp.pt p hp
  have hml : ∀ e ∈ s.cc.maybeLost, ∀ p ∈ detectedLost sp now ld cd, ¬ (e.1 = p.pt ∧ e.2.1 = p.pn) := by
    rintro e he l hl ⟨e1, e2⟩
    obtain ⟨p, hp, e3, e4, e5, _⟩ := hfrom l hl
    have := (h.maybe e he).2 p (by rw [e1, hspace l hl, pkts_some hs]; exact hp) (by omega)
    exact this e4
  obtain ⟨cc', c1, c2, c3, c4, c5⟩ := Cc.onLost_ok h.cc first prev pto (List.Pairwise.sublist hsub h2.sorted) (List.Pairwise.sublist hsub h2.timed) hml
  have hev : EvolAll next s.pkts (s.setSpace id (some sp')).pkts := by
    refine Core.evolSpace hs (fun q hq => .inl ?_)
    rw [h3] at hq
    obtain ⟨p, hp, rfl⟩ := List.mem_map.mp hq
    exact ⟨p, (List.mem_filter.mp hp).1, .mark ..⟩
  have hk : Keep s.pkts (s.setSpace id (some sp')).pkts := by
    refine Core.keepSpace hs (fun q hq => ?_)
    rw [h3] at hq
    obtain ⟨p, hp, rfl⟩ := List.mem_map.mp hq
    exact ⟨p, (List.mem_filter.mp hp).1, markLost_primary .., markLost_epoch ..⟩
  have hlostq : ∀ l ∈ detectedLost sp now ld cd, ∀ q ∈ (s.setSpace id (some sp')).pkts l.pt.space, q.pn = l.pn → q.lost ≠ none := by
    intro l hl q hq e
    rw [setSpace_pkts, hspace l hl, if_pos rfl] at hq
    have : q = l := h2.sorted.unique hq (hsub.subset hl) e
    obtain ⟨_, _, _, _, _, e6⟩ := hfrom l hl
    rw [this]; exact e6
  have hkeep : ∀ f : Pkt → Nat, tot f (s.setSpace id (some sp')) + total f sp.pkts = tot f s + total f (detectedPkts sp now ld cd) := by
    intro f
    have := tot_setSpace f s id (some sp')
    rw [pkts_some hs] at this
    simp only at this
    rw [h3] at this
    exact this
  refine ⟨sp', cc', h1, c1, ?_, ?_, h3, h4, h5, ?_, c5⟩
  · exact {
      sp := by
        intro i y hy
        show SpOK now (next i) i y
        have hy' : (if i = id then some sp' else s.spaces i) = some y := hy
        by_cases hi : i = id
        · subst hi
          rw [if_pos rfl] at hy'
          injection hy' with hy'
          exact hy' ▸ h2
        · rw [if_neg hi] at hy'
          exact (h.sp i y hy').mono hc (Nat.le_refl _)
      cc := c2
      ccs := h.ccs
      maybe := by
        show MaybeOK next (s.setSpace id (some sp')).pkts cc'.maybeLost
        rw [c4]
        intro e he
        rcases List.mem_append.mp he with he | he
        · obtain ⟨p, hp, rfl⟩ := List.mem_map.mp (List.mem_reverse.mp he)
          have hp := (List.mem_filter.mp hp).1
          refine ⟨?_, hlostq p hp⟩
          rw [hspace p hp]
          exact h2.pn p (hsub.subset hp)
        · exact h.maybe.evolve hev (fun _ => Nat.le_refl _) e he
      maybes := fun y hy => (h.maybes y hy).evolve hev (fun _ => Nat.le_refl _)
      rtt := by
        show RttOK s.confirmed (s.setSpace id (some sp')).appSent s.rtt
        rw [appSent_setSpace hs h5]; exact h.rtt
      rtts := fun y hy => by
        show RttOK s.confirmed (s.setSpace id (some sp')).appSent y.1
        rw [appSent_setSpace hs h5]; exact h.rtts y hy
      conf := by
        show s.confirmed ≠ none ↔ (s.setSpace id (some sp')).spaces .handshake = none
        rw [spaces_setSpace hs]; exact h.conf
      hs := by
        show (s.setSpace id (some sp')).spaces .handshake = none → (s.setSpace id (some sp')).spaces .initial = none
        rw [spaces_setSpace hs, spaces_setSpace hs]; exact h.hs
      app := by
        show (s.setSpace id (some sp')).spaces .app ≠ none
        intro hn
        rw [spaces_setSpace hs] at hn; exact h.app hn
      pto := h.pto
      exact := by
        intro hcl
        show cc'.flight = tot outLen (s.setSpace id (some sp')) + x
        rw [c3, h.exact hcl]
        have e1 := hkeep outLen
        have e2 := total_mark (sp.largestAcked.getD 0) now ld (sp.pkts.filter fun p => !p.expired now cd)
        have e3 := total_split outLen (fun p => p.expired now cd) sp.pkts
        have e4 : total outLen (sp.pkts.filter fun p => p.expired now cd) = 0 := by
          apply total_zero
          intro p hp
          have := (List.mem_filter.mp hp).2
          unfold Pkt.expired at this
          unfold outLen Pkt.outstanding
          cases hl : p.lost with
          | none => rw [hl] at this; cases this
          | some t => simp
        unfold detectedPkts at e1
        unfold detectedLost
        omega
      epoch := (h.keepEpoch hk).1
      epochLe := (h.keepEpoch hk).2 }
  · refine ⟨hev, (fun _ h => by cases h), .nil, ?_, sorted_keys_nodup (List.Pairwise.sublist hsub h2.sorted), (fun _ h => by cases h), .nil⟩
    intro l hl
    obtain ⟨p, hp, e3, e4, e5, e6⟩ := hfrom l hl
    exact ⟨⟨p, by rw [hspace l hl, pkts_some hs]; exact hp, e3, e4⟩, hlostq l hl⟩
  · obtain ⟨n1, n2⟩ := total_mark_num (sp.largestAcked.getD 0) now ld (sp.pkts.filter fun p => !p.expired now cd)
    have e1 := hkeep lostNum
    have e2 := hkeep lostBytes
    have e3 := total_le_filter lostNum (fun p => !p.expired now cd) sp.pkts
    have e4 := total_le_filter lostBytes (fun p => !p.expired now cd) sp.pkts
    unfold detectedPkts at e1 e2
    unfold detectedLost
    rw [List.length_map]
    omega

/-- Replacing one space. -/
theorem Core.replace (h : Core m clock next clean x s) {id : SpaceId} {sp sp' : Space} (hs : s.spaces id = some sp) {clock' x' : Nat}
    {next' : SpaceId → Nat} (hc : clock ≤ clock') (hn : ∀ i, next i ≤ next' i) (hok : SpOK clock' (next' id) id sp')
    (hev : ∀ q ∈ sp'.pkts, (∃ p ∈ sp.pkts, Evol p q) ∨ next id ≤ q.pn)
    (hep : ∀ q ∈ sp'.pkts, (∃ p ∈ sp.pkts, q.primary = p.primary ∧ q.epoch = p.epoch) ∨
      ((q.primary = true ↔ q.epoch = some s.epoch) ∧ ∀ e, q.epoch = some e → e ≤ s.epoch))
    (hu : id = .app → ∀ v, sp.largestAckedSent = some v → ∃ v', sp'.largestAckedSent = some v' ∧ v ≤ v')
    (hx : clean = true → total outLen sp'.pkts + x' = total outLen sp.pkts + x) :
    Core m clock' next' clean x' (s.setSpace id (some sp')) := by
  have hev' := Core.evolSpace hs hev
  have hrtt : ∀ r, RttOK s.confirmed s.appSent r → RttOK s.confirmed (s.setSpace id (some sp')).appSent r := by
    intro r hr
    refine ⟨hr.first, fun hb => ?_⟩
    obtain ⟨t, v, h1, h2, h3⟩ := hr.best hb
    unfold Sys.appSent Sys.setSpace
    simp only
    by_cases hi : SpaceId.app = id
    · subst hi
      unfold Sys.appSent at h2
      rw [hs] at h2
      obtain ⟨v', h4, h5⟩ := hu rfl v h2
      rw [if_pos rfl]
      exact ⟨t, v', h1, h4, by omega⟩
    · rw [if_neg hi]
      exact ⟨t, v, h1, h2, h3⟩
  have hep' : ∀ i, ∀ q ∈ (s.setSpace id (some sp')).pkts i, (∃ p ∈ s.pkts i, q.primary = p.primary ∧ q.epoch = p.epoch) ∨
      ((q.primary = true ↔ q.epoch = some s.epoch) ∧ ∀ e, q.epoch = some e → e ≤ s.epoch) := by
    intro i q hq
    rw [setSpace_pkts] at hq
    by_cases hi : i = id
    · subst hi
      rw [if_pos rfl] at hq
      rw [pkts_some hs]
      exact hep q hq
    · rw [if_neg hi] at hq
      exact .inl ⟨q, hq, rfl, rfl⟩
  exact {
    sp := by
      intro i y hy
      have hy' : (if i = id then some sp' else s.spaces i) = some y := hy
      by_cases hi : i = id
      · subst hi
        rw [if_pos rfl] at hy'
        injection hy' with hy'
        exact hy' ▸ hok
      · rw [if_neg hi] at hy'
        exact (h.sp i y hy').mono hc (hn i)
    cc := h.cc
    ccs := h.ccs
    maybe := h.maybe.evolve hev' hn
    maybes := fun y hy => (h.maybes y hy).evolve hev' hn
    rtt := hrtt _ h.rtt
    rtts := fun y hy => hrtt _ (h.rtts y hy)
    conf := by
      show s.confirmed ≠ none ↔ (s.setSpace id (some sp')).spaces .handshake = none
      rw [spaces_setSpace hs]; exact h.conf
    hs := by rw [spaces_setSpace hs, spaces_setSpace hs]; exact h.hs
    app := by intro hn; rw [spaces_setSpace hs] at hn; exact h.app hn
    pto := h.pto
    exact := by
      intro hcl
      show s.cc.flight = tot outLen (s.setSpace id (some sp')) + x'
      have e1 := tot_setSpace outLen s id (some sp')
      rw [pkts_some hs] at e1
      simp only at e1
      have := hx hcl
      have := h.exact hcl
      omega
    epoch := by
      intro hcl i q hq
      rcases hep' i q hq with ⟨p, hp, e1, e2⟩ | ⟨h1, _⟩
      · rw [e1, e2]; exact h.epoch hcl i p hp
      · exact h1
    epochLe := by
      intro i q hq e he
      rcases hep' i q hq with ⟨p, hp, e1, e2⟩ | ⟨_, h1⟩
      · exact h.epochLe i p hp e (e2 ▸ he)
      · exact h1 e he }

/-! ## Sending -/

theorem Pto.sent_packets (p : Pto) (id : SpaceId) : (p.sent id).packets = p.packets := by
  unfold Pto.sent; split <;> rfl

theorem Core.setPto (h : Core m clock next clean x s) {pto : Option Pto} (hp : ∀ p, pto = some p → p.packets ≤ maxPtoPackets) :
    Core m clock next clean x { s with pto := pto } :=
  ⟨h.sp, h.cc, h.ccs, h.maybe, h.maybes, h.rtt, h.rtts, h.conf, h.hs, h.app, hp, h.exact, h.epoch, h.epochLe⟩

theorem Core.mono (h : Core m clock next clean x s) {clock' : Nat} {next' : SpaceId → Nat} (hc : clock ≤ clock') (hn : ∀ i, next i ≤ next' i) :
    Core m clock' next' clean x s :=
  ⟨fun i y hy => (h.sp i y hy).mono hc (hn i), h.cc, h.ccs, h.maybe.evolve (.refl _ _) hn, fun y hy => (h.maybes y hy).evolve (.refl _ _) hn,
   h.rtt, h.rtts, h.conf, h.hs, h.app, h.pto, h.exact, h.epoch, h.epochLe⟩

/-- The state with another controller for the primary path. -/
theorem Core.setCc (h : Core m clock next clean x s) {cc : Cc} {x' : Nat} (hc : CcOK m cc) (hm : ∀ e ∈ cc.maybeLost, e ∈ s.cc.maybeLost)
    (hf : clean = true → cc.flight + x = s.cc.flight + x') : Core m clock next clean x' { s with cc := cc } :=
  ⟨h.sp, hc, h.ccs, h.maybe.subset hm, h.maybes, h.rtt, h.rtts, h.conf, h.hs, h.app, h.pto,
   fun hcl => by show cc.flight = tot outLen s + x'; have := h.exact hcl; have := hf hcl; omega, h.epoch, h.epochLe⟩

/-- The packet as it is tracked. -/
def sentPkt (s : Sys) (p : Pkt) (on : Option Nat) : Pkt :=
  { p with primary := on.isNone, epoch := if on.isNone then some s.epoch else none, lost := none, pto := false }

theorem Core.onSent (h : Core m clock next clean 0 s) (hst : StatsOK s) {p : Pkt} {on : Option Nat} (hc : clock ≤ p.sent) (hn : next p.pt.space ≤ p.pn) :
    ∃ s', s.onSent p on = .ok s' ∧ Core m p.sent (Ev.next (.send p on) next) clean 0 s' ∧ StatsOK s' ∧ Moves next s [] [] [] s' := by
  have hnn : ∀ i, next i ≤ Ev.next (.send p on) next i := by
    intro i
    show next i ≤ if i = p.pt.space then p.pn + 1 else next i
    split
    · subst i; omega
    · exact Nat.le_refl _
  have hpto : ∀ q, s.pto.map (Pto.sent · p.pt.space) = some q → q.packets ≤ maxPtoPackets := by
    intro q hq
    cases hp : s.pto with
    | none => rw [hp] at hq; cases hq
    | some r =>
      rw [hp] at hq
      injection hq with hq
      rw [← hq, Pto.sent_packets]
      exact h.pto r hp
  unfold Sys.onSent
  simp only
  cases hsp : s.spaces p.pt.space with
  | none => exact ⟨_, rfl, (h.setPto hpto).mono hc hnn, ⟨hst.lost, hst.bytes⟩, .quiet (.refl _ _)⟩
  | some sp =>
    simp only
    generalize hq : ({ p with primary := on.isNone, epoch := if on.isNone then some s.epoch else none, lost := none, pto := false } : Pkt) = q
    have q1 : q.pt = p.pt := by rw [← hq]
    have q2 : q.pn = p.pn := by rw [← hq]
    have q3 : q.sent = p.sent := by rw [← hq]
    have q4 : q.lost = none := by rw [← hq]
    have q5 : q.primary = on.isNone := by rw [← hq]
    have q6 : q.epoch = if on.isNone then some s.epoch else none := by rw [← hq]
    obtain ⟨sp', h1, h2, h3, h4, h5⟩ := (h.sp _ sp hsp).onSent (p := q) (by rw [q1]) (by rw [q3]; exact hc) (by rw [q2]; exact hn) q4
    rw [h1]
    rw [q2, q3] at h2
    have hev : ∀ r ∈ sp'.pkts, (∃ p ∈ sp.pkts, Evol p r) ∨ next p.pt.space ≤ r.pn := by
      intro r hr
      rw [h3] at hr
      rcases List.mem_append.mp hr with hr | hr
      · exact .inl ⟨r, hr, .refl r⟩
      · rw [List.mem_singleton] at hr
        exact .inr (by rw [hr, q2]; exact hn)
    have hep : ∀ r ∈ sp'.pkts, (∃ p ∈ sp.pkts, r.primary = p.primary ∧ r.epoch = p.epoch) ∨
        ((r.primary = true ↔ r.epoch = some s.epoch) ∧ ∀ e, r.epoch = some e → e ≤ s.epoch) := by
      intro r hr
      rw [h3] at hr
      rcases List.mem_append.mp hr with hr | hr
      · exact .inl ⟨r, hr, rfl, rfl⟩
      · rw [List.mem_singleton] at hr
        rw [hr, q5, q6]
        refine .inr ?_
        cases on.isNone with
        | true =>
          simp only [if_true, Option.some.injEq, true_and]
          intro e he
          exact Nat.le_of_eq he.symm
        | false => simp
    have hout : total outLen sp'.pkts = total outLen sp.pkts + outLen q := by rw [h3, total_append, total_cons, total_nil]; omega
    have hof : outLen q = flightLen q := by unfold outLen flightLen Pkt.outstanding Pkt.inFlight; rw [q4]; simp
    have hst' : StatsOK (s.setSpace p.pt.space (some sp')) := by
      have e1 := tot_setSpace lostNum s p.pt.space (some sp')
      have e2 := tot_setSpace lostBytes s p.pt.space (some sp')
      rw [pkts_some hsp] at e1 e2
      simp only at e1 e2
      rw [h3, total_append, total_cons, total_nil] at e1 e2
      have z1 : lostNum q = 0 := by unfold lostNum; rw [q4]; rfl
      have z2 : lostBytes q = 0 := by unfold lostBytes; rw [q4]; rfl
      have := hst.lost
      have := hst.bytes
      exact ⟨by show tot lostNum (s.setSpace _ _) ≤ s.stats.lost; omega, by show tot lostBytes (s.setSpace _ _) ≤ s.stats.bytesLost; omega⟩
    refine ⟨_, rfl, ?_, ?_, ?_⟩
    · obtain ⟨c1, c2, c3, c4, c5, c6⟩ := s.cc.onSent_eq q
      cases on with
      | none =>
        -- pretend that the controller sees the packet first
        have ha : Core m clock next clean (outLen q) { s with pto := s.pto.map (Pto.sent · p.pt.space), cc := s.cc.onSent q } := by
          refine (h.setPto hpto).setCc h.cc.onSent (fun e he => c2 ▸ he) (fun _ => ?_)
          show (s.cc.onSent q).flight + 0 = s.cc.flight + outLen q
          rw [c1, hof]; omega
        exact ha.replace (sp' := sp') hsp hc hnn (by show SpOK p.sent (if p.pt.space = p.pt.space then _ else _) _ _; rw [if_pos rfl]; exact h2) hev hep
          (fun _ v hv => ⟨v, h5.trans hv, Nat.le_refl _⟩) (fun _ => by rw [hout]; omega)
      | some i =>
        have hq0 : flightLen q = 0 := by unfold flightLen Pkt.inFlight; rw [q5]; simp
        have hmod : ∀ y ∈ s.others.modify i (fun x => (x.1, x.2.onSent q)), y ∈ s.others ∨ ∃ z ∈ s.others, y = (z.1, z.2.onSent q) := by
          intro y hy
          rw [List.mem_iff_getElem?] at hy
          obtain ⟨j, hj⟩ := hy
          rw [List.getElem?_modify] at hj
          cases hz : s.others[j]? with
          | none => rw [hz] at hj; cases hj
          | some z =>
            rw [hz] at hj
            have hz' : z ∈ s.others := List.mem_of_getElem? hz
            simp only [Option.map_eq_map, Option.map_some, Option.some.injEq] at hj
            split at hj
            · exact .inr ⟨z, hz', hj.symm⟩
            · exact .inl (hj ▸ hz')
        have ha : Core m clock next clean 0 { s with pto := s.pto.map (Pto.sent · p.pt.space), others := s.others.modify i (fun x => (x.1, x.2.onSent q)) } := by
          refine ⟨h.sp, h.cc, ?_, h.maybe, ?_, h.rtt, ?_, h.conf, h.hs, h.app, hpto, h.exact, h.epoch, h.epochLe⟩
          · intro y hy
            rcases hmod y hy with hy | ⟨z, hz, rfl⟩
            · exact h.ccs y hy
            · obtain ⟨e1, e2⟩ := h.ccs z hz
              exact ⟨e1.onSent, by show (z.2.onSent q).flight = 0; rw [(z.2.onSent_eq q).1, hq0, e2]⟩
          · intro y hy
            rcases hmod y hy with hy | ⟨z, hz, rfl⟩
            · exact h.maybes y hy
            · show MaybeOK next s.pkts (z.2.onSent q).maybeLost
              rw [(z.2.onSent_eq q).2.1]; exact h.maybes z hz
          · intro y hy
            rcases hmod y hy with hy | ⟨z, hz, rfl⟩
            · exact h.rtts y hy
            · exact h.rtts z hz
        exact ha.replace (sp' := sp') hsp hc hnn (by show SpOK p.sent (if p.pt.space = p.pt.space then _ else _) _ _; rw [if_pos rfl]; exact h2) hev hep
          (fun _ v hv => ⟨v, h5.trans hv, Nat.le_refl _⟩) (fun _ => by rw [hout, hof, hq0])
    · cases on <;> exact ⟨hst'.lost, hst'.bytes⟩
    · have := Core.evolSpace hsp hev
      cases on <;> exact .quiet this

/-! ## Discarding packets -/

theorem Rtt.update_first {r r' : Rtt} {a b now : Nat} {src : Src} (h : r.update a b src now = .ok r') : r'.first ≠ none ∧ r'.best = src := by
  unfold Rtt.update at h
  split at h
  · cases h
  · simp only at h
    cases hf : r.first with
    | none =>
      rw [hf] at h
      injection h with h
      rw [← h]; simp
    | some t =>
      rw [hf] at h
      injection h with h
      rw [← h]
      exact ⟨by simp, rfl⟩

/-- Discarding changes the estimator and the bytes in flight only. -/
theorem discardAll_ok : ∀ (ps : List Pkt) (s : Sys) (now : Nat), (s.rtt.first = none → s.rtt.best = .guess) →
    (∀ s', s.discardAll now ps = .ok s' → ∃ r', s' = { s with rtt := r', cc := { s.cc with flight := s.cc.flight - total outLen ps } } ∧
      (r'.first = none → r'.best = .guess) ∧ (r'.best = s.rtt.best ∨ r'.best = .guess)) ∧
    (total outLen ps ≤ s.cc.flight → ∃ s', s.discardAll now ps = .ok s') := by
  intro ps
  induction ps with
  | nil =>
    intro s now hr
    refine ⟨fun s' h => ?_, fun _ => ⟨s, rfl⟩⟩
    unfold Sys.discardAll at h
    injection h with h
    exact ⟨s.rtt, by rw [← h]; rfl, hr, .inl rfl⟩
  | cons p ps ih =>
    intro s now hr
    -- the estimator
    have hrtt : ∃ r', s.rtt.discarded p now = .ok r' ∧
        (r'.first = none → r'.best = .guess) ∧ (r'.best = s.rtt.best ∨ r'.best = .guess) := by
      unfold Rtt.discarded
      cases hf : s.rtt.first with
      | some t => exact ⟨s.rtt, rfl, hr, .inl rfl⟩
      | none =>
        simp only
        have hu : ∃ r', s.rtt.update (now - p.sent) 0 .guess now = .ok r' := by
          unfold Rtt.update
          rw [hr hf, if_neg (by simp)]
          simp only [hf]
          exact ⟨_, rfl⟩
        obtain ⟨r', hu⟩ := hu
        obtain ⟨h1, h2⟩ := Rtt.update_first hu
        exact ⟨r', hu, fun hc => absurd hc h1, .inr h2⟩
    obtain ⟨r', hr1, hr2, hr3⟩ := hrtt
    unfold Sys.discardAll Sys.discardPacket
    rw [hr1]
    simp only
    unfold Cc.discard
    by_cases ho : p.outstanding = true
    · rw [if_pos ho]
      have hl : outLen p = p.len := by unfold outLen; rw [if_pos ho]
      by_cases hge : s.cc.flight ≥ p.len
      · rw [if_pos hge]
        simp only
        obtain ⟨i1, i2⟩ := ih { s with rtt := r', cc := { s.cc with flight := s.cc.flight - p.len } } now hr2
        refine ⟨fun s' h => ?_, fun hle => ?_⟩
        · obtain ⟨r'', e1, e2, e3⟩ := i1 s' h
          refine ⟨r'', ?_, e2, ?_⟩
          · rw [e1, total_cons, hl, Nat.sub_add_eq]
          · rcases e3 with e3 | e3
            · rcases hr3 with e4 | e4
              · exact .inl (e3.trans e4)
              · exact .inr (e3.trans e4)
            · exact .inr e3
        · apply i2
          rw [total_cons, hl] at hle
          show _ ≤ s.cc.flight - p.len
          omega
      · rw [if_neg hge]
        simp only
        refine ⟨(fun s' h => by cases h), fun hle => ?_⟩
        rw [total_cons, hl] at hle
        omega
    · rw [if_neg ho]
      simp only
      have hl : outLen p = 0 := by unfold outLen; rw [if_neg ho]
      obtain ⟨i1, i2⟩ := ih { s with rtt := r' } now hr2
      refine ⟨fun s' h => ?_, fun hle => ?_⟩
      · obtain ⟨r'', e1, e2, e3⟩ := i1 s' h
        refine ⟨r'', ?_, e2, ?_⟩
        · rw [e1, total_cons, hl, Nat.zero_add]
        · rcases e3 with e3 | e3
          · rcases hr3 with e4 | e4
            · exact .inl (e3.trans e4)
            · exact .inr (e3.trans e4)
          · exact .inr e3
      · apply i2
        rw [total_cons, hl] at hle
        show _ ≤ s.cc.flight
        omega

theorem RttOK.discarded {conf u : Option Nat} {r r' : Rtt} (h : RttOK conf u r) (h1 : r'.first = none → r'.best = .guess)
    (h2 : r'.best = r.best ∨ r'.best = .guess) : RttOK conf u r' := by
  refine ⟨h1, fun hb => ?_⟩
  rcases h2 with h2 | h2
  · exact h.best (h2 ▸ hb)
  · rw [h2] at hb; cases hb

/-- Discard packets that are no longer tracked. -/
theorem Core.discardAll {ps : List Pkt} (h : Core m clock next clean (total outLen ps) s) (now : Nat) :
    (∀ s', s.discardAll now ps = .ok s' → Core m clock next clean 0 s' ∧ s'.pkts = s.pkts ∧ s'.stats = s.stats ∧ s'.spaces = s.spaces ∧
      s'.confirmed = s.confirmed ∧ s'.pto = s.pto) ∧
    (clean = true → ∃ s', s.discardAll now ps = .ok s') := by
  obtain ⟨d1, d2⟩ := discardAll_ok ps s now h.rtt.first
  refine ⟨fun s' hs' => ?_, fun hcl => d2 (by have := h.exact hcl; omega)⟩
  obtain ⟨r', e1, e2, e3⟩ := d1 s' hs'
  have hc : Core m clock next clean 0 { s with cc := { s.cc with flight := s.cc.flight - total outLen ps } } :=
    h.setCc ⟨h.cc.pos, h.cc.mtu, h.cc.cur, h.cc.stored⟩ (fun e he => he) (fun hcl => by
      show s.cc.flight - total outLen ps + total outLen ps = s.cc.flight + 0
      have := h.exact hcl; omega)
  rw [e1]
  exact ⟨⟨hc.sp, hc.cc, hc.ccs, hc.maybe, hc.maybes, hc.rtt.discarded e2 e3, hc.rtts, hc.conf, hc.hs, hc.app, hc.pto, hc.exact, hc.epoch, hc.epochLe⟩,
    rfl, rfl, rfl, rfl, rfl⟩

theorem StatsOK.less {s s' : Sys} (h : StatsOK s) (h1 : tot lostNum s' ≤ tot lostNum s) (h2 : tot lostBytes s' ≤ tot lostBytes s)
    (h3 : s'.stats = s.stats) : StatsOK s' :=
  ⟨by rw [h3]; exact Nat.le_trans h1 h.lost, by rw [h3]; exact Nat.le_trans h2 h.bytes⟩

theorem Core.drop0rtt (h : Core m clock next clean 0 s) (hst : StatsOK s) {now : Nat} (hc : clock ≤ now) :
    (∀ r, s.drop0rtt now = .ok r → Core m now next clean 0 r.1 ∧ StatsOK r.1 ∧ Moves next s [] [] [] r.1) ∧ (clean = true → ∃ r, s.drop0rtt now = .ok r) := by
  have h0 : Core m now next clean 0 s := h.mono hc (fun _ => Nat.le_refl _)
  unfold Sys.drop0rtt
  cases hs : s.spaces .app with
  | none => exact absurd hs h.app
  | some sp =>
    simp only
    cases hl : sp.largestAcked with
    | some n =>
      simp only
      exact ⟨(fun r hr => by injection hr with hr; rw [← hr]; exact ⟨h0, hst, .quiet (.refl _ _)⟩), fun _ => ⟨_, rfl⟩⟩
    | none =>
      simp only
      have h1 : Core m now next clean (total outLen sp.pkts) (s.setSpace .app (some sp.ignored)) :=
        h0.replace hs (Nat.le_refl _) (fun _ => Nat.le_refl _) (h0.sp _ sp hs).ignored (fun q hq => by cases hq) (fun q hq => by cases hq)
          (fun _ v hv => ⟨v, hv, Nat.le_refl _⟩) (fun _ => by show total outLen [] + _ = _; rw [total_nil]; omega)
      have hm : EvolAll next s.pkts (s.setSpace .app (some sp.ignored)).pkts := Core.evolSpace hs (fun q hq => by cases hq)
      obtain ⟨d1, d2⟩ := h1.discardAll now
      refine ⟨fun r hr => ?_, fun hcl => ?_⟩
      · cases hd : (s.setSpace .app (some sp.ignored)).discardAll now sp.pkts with
        | error e => rw [hd] at hr; cases hr
        | ok s' =>
          rw [hd] at hr
          injection hr with hr
          obtain ⟨e1, e2, e3, _⟩ := d1 s' hd
          rw [← hr]
          refine ⟨e1, hst.less ?_ ?_ e3, .quiet (by rw [e2]; exact hm)⟩
          · show tot lostNum s' ≤ _
            have := tot_setSpace lostNum s .app (some sp.ignored)
            have e : tot lostNum s' = tot lostNum (s.setSpace .app (some sp.ignored)) := by unfold tot; rw [e2]
            rw [pkts_some hs, ← e] at this
            simp only [Space.ignored, total_nil] at this
            omega
          · show tot lostBytes s' ≤ _
            have := tot_setSpace lostBytes s .app (some sp.ignored)
            have e : tot lostBytes s' = tot lostBytes (s.setSpace .app (some sp.ignored)) := by unfold tot; rw [e2]
            rw [pkts_some hs, ← e] at this
            simp only [Space.ignored, total_nil] at this
            omega
      · obtain ⟨s', hs'⟩ := d2 hcl
        rw [hs']
        exact ⟨_, rfl⟩

theorem Core.retry (h : Core m clock next clean 0 s) (hst : StatsOK s) {now : Nat} (hc : clock ≤ now) :
    (∀ r, s.retry now = .ok r → Core m now next clean 0 r.1 ∧ StatsOK r.1 ∧ Moves next s [] [] [] r.1) ∧ (clean = true → ∃ r, s.retry now = .ok r) := by
  have h0 : Core m now next clean 0 s := h.mono hc (fun _ => Nat.le_refl _)
  have hps : ∀ i, Sys.pkts { s with pto := none, spaces := fun i => (s.spaces i).map Space.ignored } i = [] := by
    intro i
    unfold Sys.pkts
    simp only
    cases s.spaces i <;> rfl
  have hn : ∀ i, (s.spaces i).map Space.ignored = none ↔ s.spaces i = none := by
    intro i; cases s.spaces i <;> simp
  have ha : Sys.appSent { s with pto := none, spaces := fun i => (s.spaces i).map Space.ignored } = s.appSent := by
    unfold Sys.appSent
    simp only
    cases s.spaces .app <;> rfl
  have hm : EvolAll next s.pkts (Sys.pkts { s with pto := none, spaces := fun i => (s.spaces i).map Space.ignored }) := by
    intro i q hq; rw [hps] at hq; cases hq
  have h1 : Core m now next clean (total outLen (s.pkts .initial ++ s.pkts .handshake ++ s.pkts .app))
      { s with pto := none, spaces := fun i => (s.spaces i).map Space.ignored } := by
    refine ⟨?_, h0.cc, h0.ccs, h0.maybe.evolve hm (fun _ => Nat.le_refl _), (fun y hy => (h0.maybes y hy).evolve hm (fun _ => Nat.le_refl _)),
      by rw [ha]; exact h0.rtt, (fun y hy => by rw [ha]; exact h0.rtts y hy), ?_, ?_, ?_, (fun p hp => by cases hp), ?_, ?_, ?_⟩
    · intro i y hy
      simp only at hy
      cases hs : s.spaces i with
      | none => rw [hs] at hy; cases hy
      | some sp =>
        rw [hs] at hy
        injection hy with hy
        exact hy ▸ (h0.sp i sp hs).ignored
    · show s.confirmed ≠ none ↔ (s.spaces .handshake).map Space.ignored = none
      rw [hn]; exact h0.conf
    · show (s.spaces .handshake).map Space.ignored = none → (s.spaces .initial).map Space.ignored = none
      rw [hn, hn]; exact h0.hs
    · show (s.spaces .app).map Space.ignored ≠ none
      intro hc; rw [hn] at hc; exact h0.app hc
    · intro hcl
      have := h0.exact hcl
      show s.cc.flight = _
      unfold tot at *
      rw [hps, hps, hps, total_append, total_append, total_nil]
      omega
    · intro _ i q hq; rw [hps] at hq; cases hq
    · intro i q hq; rw [hps] at hq; cases hq
  obtain ⟨d1, d2⟩ := h1.discardAll now
  unfold Sys.retry
  simp only
  refine ⟨fun r hr => ?_, fun hcl => ?_⟩
  · split at hr
    · cases hr
    · rename_i s' hd
      injection hr with hr
      obtain ⟨e1, e2, e3, _⟩ := d1 s' hd
      rw [← hr]
      refine ⟨e1, hst.less ?_ ?_ e3, .quiet (by rw [e2]; exact hm)⟩
      · unfold tot; rw [e2, hps, hps, hps, total_nil]; omega
      · unfold tot; rw [e2, hps, hps, hps, total_nil]; omega
  · obtain ⟨s', hs'⟩ := d2 hcl
    rw [hs']
    exact ⟨_, rfl⟩

/-- A space is dropped. -/
theorem Core.discardSpace (h : Core m clock next clean 0 s) (hst : StatsOK s) {id : SpaceId} {now : Nat} (hc : clock ≤ now) (hid : id ≠ .app)
    (hsome : (s.spaces id).isSome) (hord : id = .handshake → s.spaces .initial = none) :
    (∀ s', s.discardSpace id now = .ok s' → Core m now next clean 0 s' ∧ StatsOK s' ∧ Moves next s [] [] [] s') ∧
    (clean = true → ∃ s', s.discardSpace id now = .ok s') := by
  obtain ⟨sp, hs⟩ := Option.isSome_iff_exists.mp hsome
  have h0 : Core m now next clean 0 s := h.mono hc (fun _ => Nat.le_refl _)
  have hap : (s.setSpace id none).spaces .app = s.spaces .app := by
    unfold Sys.setSpace; simp only; rw [if_neg (fun h => hid h.symm)]
  have hconf : s.confirmed = none := by
    cases hcf : s.confirmed with
    | none => rfl
    | some t =>
      have h1 := h0.conf.mp (by rw [hcf]; simp)
      have h2 := h0.hs h1
      cases id with
      | app => exact absurd rfl hid
      | initial => rw [h2] at hs; cases hs
      | handshake => rw [h1] at hs; cases hs
  have hps : ∀ i, ∀ q ∈ (s.setSpace id none).pkts i, q ∈ s.pkts i := by
    intro i q hq
    rw [setSpace_pkts] at hq
    split at hq
    · cases hq
    · exact hq
  have hm : EvolAll next s.pkts (s.setSpace id none).pkts := fun i q hq => .inl ⟨q, hps i q hq, .refl q⟩
  have hk : Keep s.pkts (s.setSpace id none).pkts := fun i q hq => ⟨q, hps i q hq, rfl, rfl⟩
  have hspc : ∀ i y, (s.setSpace id none).spaces i = some y → s.spaces i = some y := by
    intro i y hy
    have hy' : (if i = id then none else s.spaces i) = some y := hy
    split at hy'
    · cases hy'
    · exact hy'
  have has : (s.setSpace id none).appSent = s.appSent := by unfold Sys.appSent; rw [hap]
  obtain ⟨d1, d2⟩ := discardAll_ok sp.pkts (s.setSpace id none) now h0.rtt.first
  have htot : ∀ f, tot f (s.setSpace id none) + total f sp.pkts = tot f s := by
    intro f
    have := tot_setSpace f s id none
    rw [pkts_some hs] at this
    simpa using this
  -- the state after the packets were discarded, with any probe timeout state and confirmation time
  have key : ∀ r' pto conf, (r'.first = none → r'.best = .guess) → (r'.best = s.rtt.best ∨ r'.best = .guess) →
      (∀ p, pto = some p → p.packets ≤ maxPtoPackets) → (conf ≠ none ↔ id = .handshake) →
      Core m now next clean 0 { s.setSpace id none with rtt := r', cc := { s.cc with flight := s.cc.flight - total outLen sp.pkts }, pto := pto, confirmed := conf } := by
    intro r' pto conf e2 e3 hp hcf
    have hrt : ∀ r, RttOK s.confirmed s.appSent r → RttOK conf s.appSent r := by
      intro r hr
      refine ⟨hr.first, fun hb => ?_⟩
      obtain ⟨t, _, h1, _⟩ := hr.best hb
      rw [hconf] at h1; cases h1
    refine ⟨fun i y hy => h0.sp i y (hspc i y hy), ⟨h0.cc.pos, h0.cc.mtu, h0.cc.cur, h0.cc.stored⟩, h0.ccs,
      h0.maybe.evolve hm (fun _ => Nat.le_refl _), (fun y hy => (h0.maybes y hy).evolve hm (fun _ => Nat.le_refl _)),
      ?_, ?_, ?_, ?_, ?_, hp, ?_, (h0.keepEpoch hk).1, (h0.keepEpoch hk).2⟩
    · show RttOK conf (s.setSpace id none).appSent r'
      rw [has]; exact (hrt _ h0.rtt).discarded e2 e3
    · intro y hy
      show RttOK conf (s.setSpace id none).appSent y.1
      rw [has]; exact hrt _ (h0.rtts y hy)
    · show conf ≠ none ↔ (if SpaceId.handshake = id then none else s.spaces .handshake) = none
      rw [hcf]
      constructor
      · intro hi; rw [hi, if_pos rfl]
      · intro hn
        by_cases hi : SpaceId.handshake = id
        · exact hi.symm
        · rw [if_neg hi] at hn
          exact absurd (h0.conf.mpr hn) (by rw [hconf]; simp)
    · show (if SpaceId.handshake = id then none else s.spaces .handshake) = none → (if SpaceId.initial = id then none else s.spaces .initial) = none
      intro hn
      by_cases hi : SpaceId.initial = id
      · rw [if_pos hi]
      · rw [if_neg hi]
        cases id with
        | app => exact absurd rfl hid
        | initial => exact absurd rfl hi
        | handshake => exact hord rfl
    · show (s.setSpace id none).spaces .app ≠ none
      rw [hap]; exact h0.app
    · intro hcl
      show s.cc.flight - total outLen sp.pkts = tot outLen (s.setSpace id none) + 0
      have := h0.exact hcl
      have := htot outLen
      omega
  have hst' : ∀ s', s'.pkts = (s.setSpace id none).pkts → s'.stats = s.stats → StatsOK s' := by
    intro s' e1 e2
    refine hst.less ?_ ?_ e2
    · have := htot lostNum
      have e : tot lostNum s' = tot lostNum (s.setSpace id none) := by unfold tot; rw [e1]
      omega
    · have := htot lostBytes
      have e : tot lostBytes s' = tot lostBytes (s.setSpace id none) := by unfold tot; rw [e1]
      omega
  -- confirmation
  have hcon : ∀ r', (r'.first = none → r'.best = .guess) → (r'.best = s.rtt.best ∨ r'.best = .guess) → id = .handshake →
      ∃ s', ({ s.setSpace id none with rtt := r', cc := { s.cc with flight := s.cc.flight - total outLen sp.pkts }, pto := none } : Sys).confirm now = .ok s' ∧
        Core m now next clean 0 s' ∧ StatsOK s' ∧ Moves next s [] [] [] s' := by
    intro r' e2 e3 hi
    unfold Sys.confirm
    simp only [Sys.setSpace, hconf]
    have k0 := key r' none (some now) e2 e3 (fun p hp => by cases hp) ⟨fun _ => hi, fun _ => by simp⟩
    cases hsa : s.spaces .app with
    | none => exact absurd hsa h0.app
    | some spa =>
      have hbase : ∃ b, spa.ptoBase = .ok b := by
        unfold Space.ptoBase
        have := (h0.sp _ spa hsa).base
        split
        · cases hle : spa.lastEliciting with
          | none => exact absurd hle (this (by assumption))
          | some t => exact ⟨_, rfl⟩
        · split
          · exact ⟨_, rfl⟩
          · exact ⟨_, rfl⟩
      obtain ⟨b, hb⟩ := hbase
      unfold Sys.ptoTime
      simp only [hid.symm, if_false, hsa, hb]
      cases b with
      | none =>
        simp only [Option.map_none]
        exact ⟨_, rfl, k0, hst' _ rfl rfl, .quiet hm⟩
      | some t =>
        simp only [Option.map_some]
        split
        · unfold Sys.firePto
          simp only [List.contains_cons, BEq.rfl, Bool.true_or, if_true]
          exact ⟨_, rfl, key r' (some ⟨.app, 1, maxPtoPackets, [.app]⟩) (some now) e2 e3 (fun p hp => by injection hp with hp; rw [← hp]; exact Nat.le_refl _)
            ⟨fun _ => hi, fun _ => by simp⟩, hst' _ rfl rfl, .quiet hm⟩
        · exact ⟨_, rfl, k0, hst' _ rfl rfl, .quiet hm⟩
  unfold Sys.discardSpace
  rw [if_neg hid, hs]
  simp only
  refine ⟨fun s' hr => ?_, fun hcl => ?_⟩
  · split at hr
    · cases hr
    · rename_i s₁ hd
      obtain ⟨r', e1, e2, e3⟩ := d1 s₁ hd
      rw [e1] at hr
      by_cases hi : id = .handshake
      · rw [if_pos hi] at hr
        obtain ⟨s₂, c1, c2⟩ := hcon r' e2 e3 hi
        have : Except.ok (ε := Err) s₂ = .ok s' := c1.symm.trans hr
        injection this with this
        exact this ▸ c2
      · rw [if_neg hi] at hr
        injection hr with hr
        have := key r' none s.confirmed e2 e3 (fun p hp => by cases hp) ⟨fun hn => absurd hconf hn, fun hn => absurd hn hi⟩
        rw [← hr]
        exact ⟨this, hst' _ rfl rfl, .quiet hm⟩
  · obtain ⟨s₁, hd⟩ := d2 (by have := h0.exact hcl; have := htot outLen; show _ ≤ s.cc.flight; omega)
    rw [hd]
    simp only
    obtain ⟨r', e1, e2, e3⟩ := d1 s₁ hd
    by_cases hi : id = .handshake
    · rw [if_pos hi]
      obtain ⟨s₂, c1, c2⟩ := hcon r' e2 e3 hi
      rw [e1]
      exact ⟨s₂, c1⟩
    · rw [if_neg hi]; exact ⟨_, rfl⟩

/-! ## Paths -/

theorem Core.addPath (h : Core m clock next clean 0 s) (hst : StatsOK s) {rtt mtu : Nat} (hm : m ≤ mtu) :
    Core m clock next clean 0 (s.addPath rtt mtu) ∧ StatsOK (s.addPath rtt mtu) ∧ Moves next s [] [] [] (s.addPath rtt mtu) := by
  refine ⟨⟨h.sp, h.cc, ?_, h.maybe, ?_, h.rtt, ?_, h.conf, h.hs, h.app, h.pto, h.exact, h.epoch, h.epochLe⟩, ⟨hst.lost, hst.bytes⟩, .quiet (.refl _ _)⟩
  · intro y hy
    rcases List.mem_append.mp hy with hy | hy
    · exact h.ccs y hy
    · rw [List.mem_singleton] at hy
      rw [hy]
      exact ⟨.new h.cc.pos hm, rfl⟩
  · intro y hy
    rcases List.mem_append.mp hy with hy | hy
    · exact h.maybes y hy
    · rw [List.mem_singleton] at hy
      rw [hy]
      intro e he
      cases he
  · intro y hy
    rcases List.mem_append.mp hy with hy | hy
    · exact h.rtts y hy
    · rw [List.mem_singleton] at hy
      rw [hy]
      exact ⟨fun _ => rfl, fun hb => by cases hb⟩

/-- Switching paths without telling loss recovery: the bytes in flight are no longer known. -/
theorem Core.switchPath (h : Core m clock next clean 0 s) (hst : StatsOK s) (i : Nat) :
    Core m clock next false 0 (s.switchPath i) ∧ StatsOK (s.switchPath i) ∧ Moves next s [] [] [] (s.switchPath i) := by
  unfold Sys.switchPath
  cases hi : s.others[i]? with
  | none =>
    exact ⟨⟨h.sp, h.cc, h.ccs, h.maybe, h.maybes, h.rtt, h.rtts, h.conf, h.hs, h.app, h.pto, (fun hc => by cases hc), (fun hc => by cases hc), h.epochLe⟩,
      hst, .quiet (.refl _ _)⟩
  | some y =>
    have hy : y ∈ s.others := List.mem_of_getElem? hi
    have hset : ∀ z ∈ s.others.set i (s.rtt, { s.cc with flight := 0 }), z ∈ s.others ∨ z = (s.rtt, { s.cc with flight := 0 }) :=
      fun z hz => List.mem_or_eq_of_mem_set hz
    refine ⟨⟨h.sp, (h.ccs y hy).1, ?_, h.maybes y hy, ?_, h.rtts y hy, ?_, h.conf, h.hs, h.app, h.pto, (fun hc => by cases hc), (fun hc => by cases hc), ?_⟩,
      ⟨hst.lost, hst.bytes⟩, .quiet (.refl _ _)⟩
    · intro z hz
      rcases hset z hz with hz | rfl
      · exact h.ccs z hz
      · exact ⟨⟨h.cc.pos, h.cc.mtu, h.cc.cur, h.cc.stored⟩, rfl⟩
    · intro z hz
      rcases hset z hz with hz | rfl
      · exact h.maybes z hz
      · exact h.maybe
    · intro z hz
      rcases hset z hz with hz | rfl
      · exact h.rtts z hz
      · exact h.rtt
    · intro j p hp e he
      have := h.epochLe j p hp e he
      show e ≤ s.epoch + 1
      omega

theorem clearPrimary_pkts (s : Sys) (i : SpaceId) : s.clearPrimary.pkts i = (s.pkts i).map fun p => { p with primary := false } := by
  unfold Sys.clearPrimary Sys.pkts
  simp only
  cases s.spaces i <;> rfl

theorem Core.migrate (h : Core m clock next clean 0 s) (hst : StatsOK s) {i : Nat} (hi : i < s.others.length) :
    Core m clock next clean 0 (s.switchPath i).clearPrimary ∧ StatsOK (s.switchPath i).clearPrimary ∧ Moves next s [] [] [] (s.switchPath i).clearPrimary := by
  obtain ⟨h1, h2, h3⟩ := h.switchPath hst i
  have hep : (s.switchPath i).epoch = s.epoch + 1 ∧ (s.switchPath i).cc.flight = 0 ∧ (s.switchPath i).pkts = s.pkts := by
    unfold Sys.switchPath
    have hy : s.others[i]? = some s.others[i] := List.getElem?_eq_getElem hi
    rw [hy]
    exact ⟨rfl, (h.ccs _ (List.getElem_mem hi)).2, rfl⟩
  obtain ⟨e1, e2, e3⟩ := hep
  generalize s.switchPath i = s₁ at *
  have hps : ∀ j, ∀ q ∈ s₁.clearPrimary.pkts j, ∃ p ∈ s.pkts j, Evol p q ∧ q.epoch = p.epoch ∧ q.primary = false := by
    intro j q hq
    rw [clearPrimary_pkts, e3] at hq
    obtain ⟨p, hp, rfl⟩ := List.mem_map.mp hq
    exact ⟨p, hp, ⟨rfl, rfl, rfl, rfl, rfl, rfl, rfl, fun _ => rfl, fun h => h⟩, rfl, rfl⟩
  have hev : EvolAll next s.pkts s₁.clearPrimary.pkts := fun j q hq => by
    obtain ⟨p, hp, e, _⟩ := hps j q hq
    exact .inl ⟨p, hp, e⟩
  have hev₁ : EvolAll next s₁.pkts s₁.clearPrimary.pkts := by rw [e3]; exact hev
  have hn : ∀ j, s₁.clearPrimary.spaces j = none ↔ s₁.spaces j = none := by
    intro j; unfold Sys.clearPrimary; simp only; cases s₁.spaces j <;> simp
  have ha : s₁.clearPrimary.appSent = s₁.appSent := by
    unfold Sys.clearPrimary Sys.appSent; simp only; cases s₁.spaces .app <;> rfl
  have htot : ∀ f : Pkt → Nat, (∀ p : Pkt, f { p with primary := false } = f p) → tot f s₁.clearPrimary = tot f s₁ := by
    intro f hf
    apply tot_congr
    intro j
    rw [clearPrimary_pkts, total_map]
    exact total_congr (fun p _ => hf p)
  refine ⟨?_, ?_, .quiet hev⟩
  · exact {
      sp := by
        intro j y hy
        unfold Sys.clearPrimary at hy
        simp only at hy
        cases hs : s₁.spaces j with
        | none => rw [hs] at hy; cases hy
        | some sp =>
          rw [hs] at hy
          injection hy with hy
          exact hy ▸ (h1.sp j sp hs).migrate
      cc := h1.cc
      ccs := h1.ccs
      maybe := h1.maybe.evolve hev₁ (fun _ => Nat.le_refl _)
      maybes := fun y hy => (h1.maybes y hy).evolve hev₁ (fun _ => Nat.le_refl _)
      rtt := by rw [ha]; exact h1.rtt
      rtts := fun y hy => by rw [ha]; exact h1.rtts y hy
      conf := by rw [hn]; exact h1.conf
      hs := by rw [hn, hn]; exact h1.hs
      app := by intro hc; rw [hn] at hc; exact h1.app hc
      pto := h1.pto
      exact := by
        intro _
        show s₁.cc.flight = _
        rw [e2]
        have hz : ∀ j, total outLen (s₁.clearPrimary.pkts j) = 0 := by
          intro j
          apply total_zero
          intro q hq
          obtain ⟨_, _, _, _, e⟩ := hps j q hq
          unfold outLen Pkt.outstanding
          rw [e]; simp
        unfold tot
        rw [hz, hz, hz]
      epoch := by
        intro _ j q hq
        obtain ⟨p, hp, _, e4, e5⟩ := hps j q hq
        rw [e5, e4]
        show _ ↔ p.epoch = some s₁.epoch
        rw [e1]
        constructor
        · intro hc; cases hc
        · intro hc
          have := h.epochLe j p hp _ hc
          omega
      epochLe := by
        intro j q hq e he
        obtain ⟨p, hp, _, e4, _⟩ := hps j q hq
        have := h.epochLe j p hp e (e4 ▸ he)
        show e ≤ s₁.epoch
        omega }
  · refine h2.less ?_ ?_ rfl
    · exact Nat.le_of_eq (htot lostNum (fun _ => rfl))
    · exact Nat.le_of_eq (htot lostBytes (fun _ => rfl))

theorem Core.setMtu (h : Core m clock next clean 0 s) (hst : StatsOK s) {mtu : Nat} (hm : m ≤ mtu) :
    Core m clock next clean 0 { s with cc := { s.cc with mtu := mtu } } ∧ StatsOK { s with cc := { s.cc with mtu := mtu } } ∧
    Moves next s [] [] [] { s with cc := { s.cc with mtu := mtu } } :=
  ⟨h.setCc ⟨h.cc.pos, hm, h.cc.cur, h.cc.stored⟩ (fun _ he => he) (fun _ => rfl), ⟨hst.lost, hst.bytes⟩, .quiet (.refl _ _)⟩

theorem Core.setAckDelay (h : Core m clock next clean 0 s) (hst : StatsOK s) (d : Nat) :
    Core m clock next clean 0 { s with rtt := { s.rtt with maxAckDelay := d } } ∧ StatsOK { s with rtt := { s.rtt with maxAckDelay := d } } ∧
    Moves next s [] [] [] { s with rtt := { s.rtt with maxAckDelay := d } } :=
  ⟨⟨h.sp, h.cc, h.ccs, h.maybe, h.maybes, ⟨h.rtt.first, h.rtt.best⟩, h.rtts, h.conf, h.hs, h.app, h.pto, h.exact, h.epoch, h.epochLe⟩,
   ⟨hst.lost, hst.bytes⟩, .quiet (.refl _ _)⟩

theorem Core.sendProfile (hm : ackOnlyLimit < m) (h : Core m clock next clean 0 s) (hst : StatsOK s) (amp : Nat) (pace : Bool) :
    ∃ s' pr, s.sendProfile amp pace = .ok (s', pr) ∧ Core m clock next clean 0 s' ∧ StatsOK s' ∧ Moves next s [] [] [] s' := by
  have hmtu : s.cc.mtu > ackOnlyLimit := Nat.lt_of_lt_of_le hm h.cc.mtu
  unfold Sys.sendProfile
  simp only
  split
  · refine ⟨_, _, rfl, h.setPto ?_, ⟨hst.lost, hst.bytes⟩, .quiet (.refl _ _)⟩
    intro p hp
    cases hpt : s.pto with
    | none => rw [hpt] at hp; cases hp
    | some r =>
      rw [hpt] at hp
      injection hp with hp
      have := h.pto r hpt
      rw [← hp]
      show r.packets - 1 ≤ _
      omega
  · split
    · split
      · exact ⟨_, _, rfl, h, hst, .quiet (.refl _ _)⟩
      · exact ⟨_, _, rfl, h, hst, .quiet (.refl _ _)⟩
    · split
      · exact ⟨_, _, rfl, h, hst, .quiet (.refl _ _)⟩
      · exact ⟨_, _, rfl, h, hst, .quiet (.refl _ _)⟩

end Neqo.Rec
