import Verif.Recovery.Step

/-! # Acknowledgements and timeouts preserve the invariant -/
namespace Neqo.Rec

variable {m clock : Nat} {next : SpaceId → Nat} {clean : Bool} {x : Nat} {s : Sys}

theorem ackedAll_ok : ∀ (ps : List Pkt) (st : LStats), total lostNum ps ≤ st.lost → total lostBytes ps ≤ st.bytesLost →
    ∃ st', st.ackedAll ps = .ok st' ∧ st'.lost = st.lost - total lostNum ps ∧ st'.bytesLost = st.bytesLost - total lostBytes ps := by
  intro ps
  induction ps with
  | nil => intro st _ _; exact ⟨st, rfl, rfl, rfl⟩
  | cons p ps ih =>
    intro st h1 h2
    rw [total_cons] at h1 h2
    have hone : ∃ st', st.acked p = .ok st' ∧ st'.lost = st.lost - lostNum p ∧ st'.bytesLost = st.bytesLost - lostBytes p := by
      unfold LStats.acked lostNum lostBytes at *
      simp only
      split
      · rename_i hl
        rw [if_pos hl] at h1 h2
        have e1 : (if p.pto = true then { st with ptoAck := st.ptoAck + 1 } else st).lost = st.lost := by split <;> rfl
        have e2 : (if p.pto = true then { st with ptoAck := st.ptoAck + 1 } else st).bytesLost = st.bytesLost := by split <;> rfl
        rw [e1, e2, if_pos (by omega)]
        exact ⟨_, rfl, rfl, rfl⟩
      · refine ⟨_, rfl, ?_, ?_⟩ <;> split <;> rfl
    obtain ⟨st₁, a1, a2, a3⟩ := hone
    obtain ⟨st₂, b1, b2, b3⟩ := ih st₁ (by omega) (by omega)
    unfold LStats.ackedAll
    rw [a1]
    refine ⟨st₂, b1, ?_, ?_⟩
    · rw [b2, a2, total_cons, Nat.sub_sub]
    · rw [b3, a3, total_cons, Nat.sub_sub]

/-- The packets acknowledged by an ACK frame: the largest number first. -/
def ackedPkts (ps : List Pkt) (rs : List (Nat × Nat)) : List Pkt := (ps.filter (inRanges rs)).reverse

/-- What stays. -/
def keptPkts (ps : List Pkt) (rs : List (Nat × Nat)) : List Pkt := ps.filter (fun p => !inRanges rs p)

/-- The space after packets were acknowledged and before losses are detected. -/
def ackedSpace (sp : Space) (rs : List (Nat × Nat)) (top : Pkt) : Space :=
  let sp := { sp with pkts := keptPkts sp.pkts rs, inFlight := countEliciting (keptPkts sp.pkts rs) }
  if sp.largestAcked.all (fun l => decide (top.pn > l)) then { sp with largestAcked := some top.pn, largestAckedSent := some top.sent } else sp

theorem SpOK.acked {id : SpaceId} {sp : Space} {next : Nat} (h : SpOK clock next id sp) (rs : List (Nat × Nat)) {top : Pkt} (ht : top ∈ sp.pkts) :
    SpOK clock next id (ackedSpace sp rs top) ∧ (∀ v, sp.largestAckedSent = some v → ∃ v', (ackedSpace sp rs top).largestAckedSent = some v' ∧ v ≤ v') := by
  have hf := h.filter (fun p => !inRanges rs p)
  unfold ackedSpace keptPkts
  simp only
  split
  · rename_i hall
    have hlt : ∀ n, sp.largestAcked = some n → n < top.pn := by
      intro n hn
      rw [hn] at hall
      exact of_decide_eq_true hall
    refine ⟨{ hf with la := ?_, laNone := (fun hc => by cases hc), lostLa := ?_ }, ?_⟩
    · intro n hn
      injection hn with hn
      subst hn
      refine ⟨h.pn top ht, top.sent, rfl, h.sent top ht, fun p hp hpn => ?_⟩
      exact h.sorted.sent_le h.timed ht (List.mem_filter.mp hp).1 hpn
    · intro p hp hl
      obtain ⟨n, hn, hlt'⟩ := h.lostLa p (List.mem_filter.mp hp).1 hl
      exact ⟨top.pn, rfl, Nat.lt_trans hlt' (hlt n hn)⟩
    · intro v hv
      refine ⟨top.sent, rfl, ?_⟩
      cases hn : sp.largestAcked with
      | none => rw [h.laNone hn] at hv; cases hv
      | some n =>
        obtain ⟨_, u, hu, _, hle⟩ := h.la n hn
        have : v = u := by rw [hv] at hu; injection hu
        rw [this]
        exact hle top ht (hlt n hn)
  · exact ⟨hf, fun v hv => ⟨v, hv, Nat.le_refl _⟩⟩

/-- The result of a round-trip sample. -/
theorem rttSample_ok {id : SpaceId} {sp : Space} (h : Core m clock next clean x s) (hs : s.spaces id = some sp) {top : Pkt} (ht : top ∈ sp.pkts)
    (hall : sp.largestAcked.all (fun l => decide (top.pn > l)) = true) (now ackDelay : Nat) :
    ∃ r', s.rttSample top.sent now ackDelay = .ok { s with rtt := r' } ∧ (r'.first = none → r'.best = .guess) ∧
      (r' = s.rtt ∨ (r'.best = .confirmed → ∃ t, s.confirmed = some t ∧ t < top.sent ∧ id = .app)) := by
  have hsp := h.sp id sp hs
  have hidapp : ∀ t, s.confirmed = some t → id = .app := by
    intro t ht
    have h1 := h.conf.mp (by rw [ht]; simp)
    have h2 := h.hs h1
    cases id with
    | app => rfl
    | initial => rw [h2] at hs; cases hs
    | handshake => rw [h1] at hs; cases hs
  unfold Sys.rttSample
  simp only
  by_cases hle : top.sent ≤ now
  · rw [if_pos hle]
    generalize hsrc : (if (s.confirmed.any fun t => decide (t < top.sent)) = true then Src.confirmed else Src.ack) = src
    have hrank : ¬ src.rank < s.rtt.best.rank := by
      intro hlt
      have hb : s.rtt.best = .confirmed := by
        cases hb : s.rtt.best with
        | confirmed => rfl
        | guess => rw [hb] at hlt; simp only [Src.rank] at hlt; omega
        | ack =>
          rw [hb, ← hsrc] at hlt
          split at hlt <;> simp [Src.rank] at hlt
      obtain ⟨t, v, h1, h2, h3⟩ := h.rtt.best hb
      have hid := hidapp t h1
      subst hid
      unfold Sys.appSent at h2
      rw [hs] at h2
      have hv : sp.largestAckedSent = some v := h2
      have hvt : v ≤ top.sent := by
        cases hn : sp.largestAcked with
        | none => rw [hsp.laNone hn] at hv; cases hv
        | some n =>
          obtain ⟨_, u, hu, _, hle'⟩ := hsp.la n hn
          have : v = u := by rw [hv] at hu; injection hu
          rw [this]
          rw [hn] at hall
          exact hle' top ht (of_decide_eq_true hall)
      rw [h1] at hsrc
      have : (Option.any (fun t => decide (t < top.sent)) (some t)) = true := decide_eq_true (by omega)
      rw [if_pos this] at hsrc
      rw [← hsrc, hb] at hlt
      exact Nat.lt_irrefl _ hlt
    have hu : ∃ r', s.rtt.update (now - top.sent) ackDelay src now = .ok r' := by
      unfold Rtt.update
      rw [if_neg hrank]
      simp only
      cases s.rtt.first <;> exact ⟨_, rfl⟩
    obtain ⟨r', hu⟩ := hu
    rw [hu]
    obtain ⟨u1, u2⟩ := Rtt.update_first hu
    refine ⟨r', rfl, fun hc => absurd hc u1, .inr ?_⟩
    intro hb
    rw [u2, ← hsrc] at hb
    cases hcf : s.confirmed with
    | none => rw [hcf] at hb; simp at hb
    | some t =>
      rw [hcf] at hb
      split at hb
      · rename_i h1
        exact ⟨t, rfl, of_decide_eq_true h1, hidapp t hcf⟩
      · cases hb
  · rw [if_neg hle]
    exact ⟨s.rtt, rfl, h.rtt.first, .inl rfl⟩

/-- What an ACK frame does. -/
theorem Core.onAck (h : Core m clock next clean 0 s) (hst : StatsOK s) {id : SpaceId} {rs : List (Nat × Nat)} {i : AckIn} {now : Nat} (hc : clock ≤ now)
    (hrs : Descending none rs) (hb : 0 < i.bfi) :
    ∃ s' lost, s.onAck id rs i now = .ok (s', ackedPkts (s.pkts id) rs, lost) ∧ Core m now next clean 0 s' ∧ StatsOK s' ∧
      Moves next s (ackedPkts (s.pkts id) rs) lost [] s' ∧
      (∀ sp top rest, s.spaces id = some sp → ackedPkts sp.pkts rs = top :: rest → ∃ ld cd sp', s'.spaces id = some sp' ∧ ld = s'.rtt.lossDelay ∧
        sp'.pkts = detectedPkts (ackedSpace sp rs top) now ld cd ∧ lost = detectedLost (ackedSpace sp rs top) now ld cd ∧
        sp'.largestAcked = (ackedSpace sp rs top).largestAcked ∧ s'.pto = none ∧ (∀ j, j ≠ id → s'.spaces j = s.spaces j)) ∧
      (ackedPkts (s.pkts id) rs = [] → lost = [] ∧ s'.pkts = s.pkts ∧ s'.pto = s.pto) := by
  have h0 : Core m now next clean 0 s := h.mono hc (fun _ => Nat.le_refl _)
  unfold Sys.onAck
  cases hs : s.spaces id with
  | none =>
    have e : ackedPkts (s.pkts id) rs = [] := by rw [pkts_none hs]; rfl
    rw [e]
    exact ⟨s, [], rfl, h0, hst, .quiet (.refl _ _), (fun sp top rest hsp => by cases hsp), fun _ => ⟨rfl, rfl, rfl⟩⟩
  | some sp =>
    have hsp := h0.sp id sp hs
    simp only
    have htr : takeRanges sp.pkts none rs = .ok (keptPkts sp.pkts rs, ackedPkts sp.pkts rs) := takeRanges_ok hsp.sorted hrs
    rw [htr]
    simp only
    rw [pkts_some hs]
    have ecnt : countEliciting (ackedPkts sp.pkts rs) + countEliciting (keptPkts sp.pkts rs) = countEliciting sp.pkts := by
      simp only [countEliciting_eq]
      unfold ackedPkts keptPkts
      rw [total_reverse]
      exact (total_split _ _ _).symm
    have ein : sp.inFlight - countEliciting (ackedPkts sp.pkts rs) = countEliciting (keptPkts sp.pkts rs) := by rw [hsp.inFl]; omega
    have hrem : Space.removeOutstanding { sp with pkts := keptPkts sp.pkts rs } (countEliciting (ackedPkts sp.pkts rs)) =
        .ok { sp with pkts := keptPkts sp.pkts rs, inFlight := countEliciting (keptPkts sp.pkts rs) } := by
      unfold Space.removeOutstanding
      rw [if_pos (by show sp.inFlight ≥ _; rw [hsp.inFl]; omega)]
      simp only [ein]
    rw [hrem]
    simp only
    have hsplit : ∀ f, total f (ackedPkts sp.pkts rs) + total f (keptPkts sp.pkts rs) = total f sp.pkts := by
      intro f
      unfold ackedPkts keptPkts
      rw [total_reverse]
      exact (total_split _ _ _).symm
    have htotle : ∀ f, total f sp.pkts ≤ tot f s := by
      intro f
      rw [← pkts_some hs]
      unfold tot
      cases id <;> omega
    obtain ⟨st', st1, st2, st3⟩ := ackedAll_ok (ackedPkts sp.pkts rs) s.stats
      (by have := hst.lost; have := hsplit lostNum; have := htotle lostNum; omega)
      (by have := hst.bytes; have := hsplit lostBytes; have := htotle lostBytes; omega)
    rw [st1]
    simp only
    have hmemk : ∀ q ∈ keptPkts sp.pkts rs, q ∈ sp.pkts ∧ inRanges rs q = false := by
      intro q hq
      obtain ⟨a, b⟩ := List.mem_filter.mp hq
      exact ⟨a, by simpa using b⟩
    have hmema : ∀ q ∈ ackedPkts sp.pkts rs, q ∈ sp.pkts ∧ inRanges rs q = true := by
      intro q hq
      exact List.mem_filter.mp (List.mem_reverse.mp hq)
    -- after the packets were removed
    have hsub : ∀ sp₁ : Space, sp₁.pkts = keptPkts sp.pkts rs → (∀ q ∈ sp₁.pkts, (∃ p ∈ sp.pkts, Evol p q) ∨ next id ≤ q.pn) ∧
        (∀ q ∈ sp₁.pkts, (∃ p ∈ sp.pkts, q.primary = p.primary ∧ q.epoch = p.epoch) ∨
          ((q.primary = true ↔ q.epoch = some s.epoch) ∧ ∀ e, q.epoch = some e → e ≤ s.epoch)) := by
      intro sp₁ e
      rw [e]
      exact ⟨fun q hq => .inl ⟨q, (hmemk q hq).1, .refl q⟩, fun q hq => .inl ⟨q, (hmemk q hq).1, rfl, rfl⟩⟩
    have hst₁ : ∀ sp₁ : Space, sp₁.pkts = keptPkts sp.pkts rs → tot lostNum (s.setSpace id (some sp₁)) ≤ st'.lost ∧ tot lostBytes (s.setSpace id (some sp₁)) ≤ st'.bytesLost := by
      intro sp₁ e
      have e1 := tot_setSpace lostNum s id (some sp₁)
      have e2 := tot_setSpace lostBytes s id (some sp₁)
      rw [pkts_some hs] at e1 e2
      simp only [e] at e1 e2
      have := hsplit lostNum
      have := hsplit lostBytes
      have := hst.lost
      have := hst.bytes
      omega
    cases hack : ackedPkts sp.pkts rs with
    | nil =>
      simp only
      have hkeep : keptPkts sp.pkts rs = sp.pkts := by
        unfold keptPkts
        rw [List.filter_eq_self]
        intro q hq
        cases hr : inRanges rs q with
        | false => rfl
        | true =>
          have : q ∈ ackedPkts sp.pkts rs := List.mem_reverse.mpr (List.mem_filter.mpr ⟨hq, hr⟩)
          rw [hack] at this; cases this
      obtain ⟨a1, a2⟩ := hsub { sp with pkts := keptPkts sp.pkts rs, inFlight := countEliciting (keptPkts sp.pkts rs) } rfl
      have hc1 : Core m now next clean 0 (s.setSpace id (some { sp with pkts := keptPkts sp.pkts rs, inFlight := countEliciting (keptPkts sp.pkts rs) })) :=
        h0.replace hs (Nat.le_refl _) (fun _ => Nat.le_refl _) (hsp.filter _) a1 a2 (fun _ v hv => ⟨v, hv, Nat.le_refl _⟩) (fun _ => by
          show total outLen (keptPkts sp.pkts rs) + 0 = _; rw [hkeep])
      refine ⟨_, [], rfl, ?_, ?_, ?_, (fun sp' top rest hsp' hr => ?_), fun _ => ⟨rfl, ?_, rfl⟩⟩
      · exact ⟨hc1.sp, hc1.cc, hc1.ccs, hc1.maybe, hc1.maybes, hc1.rtt, hc1.rtts, hc1.conf, hc1.hs, hc1.app, hc1.pto, hc1.exact, hc1.epoch, hc1.epochLe⟩
      · obtain ⟨b1, b2⟩ := hst₁ { sp with pkts := keptPkts sp.pkts rs, inFlight := countEliciting (keptPkts sp.pkts rs) } rfl
        exact ⟨b1, b2⟩
      · exact .quiet (Core.evolSpace hs a1)
      · injection hsp' with hsp'
        rw [← hsp', hack] at hr; cases hr
      · funext j
        show (s.setSpace id (some _)).pkts j = s.pkts j
        rw [setSpace_pkts]
        split
        · rename_i hj
          rw [hj, pkts_some hs]
          exact hkeep
        · rfl
    | cons top rest =>
      simp only
      have htop : top ∈ sp.pkts := (hmema top (by rw [hack]; exact List.mem_cons_self)).1
      obtain ⟨k1, k2⟩ := hsp.acked rs htop
      -- the round-trip estimate
      have hnl : ∃ r', Sys.newLargest { s with stats := st' } { sp with pkts := keptPkts sp.pkts rs, inFlight := countEliciting (keptPkts sp.pkts rs) } top
            ((top :: rest).any (·.eliciting)) i.ackDelay now = .ok ({ s with stats := st', rtt := r' }, ackedSpace sp rs top) ∧
          RttOK s.confirmed (s.setSpace id (some (ackedSpace sp rs top))).appSent r' := by
        have hold : RttOK s.confirmed (s.setSpace id (some (ackedSpace sp rs top))).appSent s.rtt := by
          have := h0.replace (sp' := ackedSpace sp rs top) (x' := total outLen (ackedPkts sp.pkts rs)) hs (Nat.le_refl _) (fun _ => Nat.le_refl _) k1
            (hsub _ (by unfold ackedSpace; simp only; split <;> rfl)).1 (hsub _ (by unfold ackedSpace; simp only; split <;> rfl)).2 (fun _ => k2) (fun _ => by
              have e : (ackedSpace sp rs top).pkts = keptPkts sp.pkts rs := by unfold ackedSpace; simp only; split <;> rfl
              rw [e]
              have := hsplit outLen
              omega)
          exact this.rtt
        unfold Sys.newLargest ackedSpace
        simp only
        by_cases hall : sp.largestAcked.all (fun l => decide (top.pn > l)) = true
        · rw [if_pos hall, if_pos hall]
          by_cases hel : ((top :: rest).any (·.eliciting) && top.primary) = true
          · rw [if_pos hel]
            have hcst : Core m now next clean 0 { s with stats := st' } :=
              ⟨h0.sp, h0.cc, h0.ccs, h0.maybe, h0.maybes, h0.rtt, h0.rtts, h0.conf, h0.hs, h0.app, h0.pto, h0.exact, h0.epoch, h0.epochLe⟩
            obtain ⟨r', r1, r2, r3⟩ := rttSample_ok hcst hs htop hall now i.ackDelay
            rw [r1]
            refine ⟨r', rfl, r2, fun hbst => ?_⟩
            rcases r3 with r3 | r3
            · unfold ackedSpace at hold
              simp only [if_pos hall] at hold
              rw [r3] at hbst
              exact hold.best hbst
            · obtain ⟨t, t1, t2, t3⟩ := r3 hbst
              subst t3
              refine ⟨t, top.sent, t1, ?_, t2⟩
              unfold Sys.appSent Sys.setSpace
              simp
          · rw [if_neg hel]
            unfold ackedSpace at hold
            simp only [if_pos hall] at hold
            exact ⟨s.rtt, rfl, hold⟩
        · rw [if_neg hall, if_neg hall]
          unfold ackedSpace at hold
          simp only [if_neg hall] at hold
          exact ⟨s.rtt, rfl, hold⟩
      obtain ⟨r', n1, n2⟩ := hnl
      have epk : (ackedSpace sp rs top).pkts = keptPkts sp.pkts rs := by unfold ackedSpace; simp only; split <;> rfl
      obtain ⟨a1, a2⟩ := hsub (ackedSpace sp rs top) epk
      have hc1 := h0.replace (sp' := ackedSpace sp rs top) (x' := total outLen (ackedPkts sp.pkts rs)) hs (Nat.le_refl _) (fun _ => Nat.le_refl _) k1 a1 a2
        (fun _ => k2) (fun _ => by rw [epk]; have := hsplit outLen; omega)
      -- the state before losses are detected
      have hc2 : Core m now next clean (total outLen (ackedPkts sp.pkts rs)) ({ s with stats := st', rtt := r' }.setSpace id (some (ackedSpace sp rs top))) :=
        ⟨hc1.sp, hc1.cc, hc1.ccs, hc1.maybe, hc1.maybes, n2, hc1.rtts, hc1.conf, hc1.hs, hc1.app, hc1.pto, hc1.exact, hc1.epoch, hc1.epochLe⟩
      have hs2 : ({ s with stats := st', rtt := r' }.setSpace id (some (ackedSpace sp rs top))).spaces id = some (ackedSpace sp rs top) := by
        unfold Sys.setSpace; simp
      obtain ⟨sp', cc', d1, d2, d3, d4, d5, d6, d7, ⟨d8, d9⟩, d10⟩ := hc2.detect hs2 (Nat.le_refl now) r'.lossDelay
        (Sys.ptoPeriod { s with stats := st', rtt := r' }) r'.first sp.largestAckedSent (r'.pto s.confirmed.isSome)
      rw [setSpace_setSpace] at d3 d4 d8 d9
      obtain ⟨cc'', p1, p2, p3, p4, p5⟩ := Cc.pathAcked_ok d3.cc (ackedPkts sp.pkts rs) top now (r'.pto true) hb
      have hd3 := (d3.setCc (x' := 0) p2 p4 (fun hcl => by
        have := d3.exact hcl
        show cc''.flight + _ = _
        rw [p3]
        show cc'.flight - _ + _ = cc'.flight + 0
        have h1 : cc'.flight = tot outLen _ + _ := this
        omega)).setPto (pto := none) (fun p hp => by cases hp)
      generalize hcd : Sys.ptoPeriod { s with stats := st', rtt := r' } = cd at *
      generalize hlost : detectedLost (ackedSpace sp rs top) now r'.lossDelay cd = lost at *
      refine ⟨{ ({ s with stats := st', rtt := r' } : Sys).setSpace id (some sp') with stats := st'.countLost lost, cc := cc'', pto := none }, lost, ?_, ?_, ?_, ?_, ?_, ?_⟩
      · unfold Sys.ackFound
        rw [n1]
        simp only
        rw [hcd, d1]
        simp only
        have d2' : s.cc.onLost r'.first sp.largestAckedSent (r'.pto s.confirmed.isSome) lost = .ok cc' := d2
        rw [d2']
        simp only
        rw [hack] at p1
        rw [p1]
      · exact ⟨hd3.sp, hd3.cc, hd3.ccs, hd3.maybe, hd3.maybes, hd3.rtt, hd3.rtts, hd3.conf, hd3.hs, hd3.app, hd3.pto, hd3.exact, hd3.epoch, hd3.epochLe⟩
      · obtain ⟨b1, b2⟩ := hst₁ (ackedSpace sp rs top) epk
        exact ⟨Nat.le_trans d8 (Nat.add_le_add_right b1 _), Nat.le_trans d9 (Nat.add_le_add_right b2 _)⟩
      · -- first the acknowledged packets go, then losses are detected
        have m1 : Moves next s (ackedPkts sp.pkts rs) [] [] ({ s with stats := st', rtt := r' }.setSpace id (some (ackedSpace sp rs top))) := by
          refine ⟨Core.evolSpace hs a1, ?_, ?_, (fun _ h => by cases h), .nil, (fun _ h => by cases h), .nil⟩
          · intro a ha
            obtain ⟨g1, g2⟩ := hmema a ha
            have hsid := hsp.pt a g1
            refine ⟨by rw [hsid, pkts_some hs]; exact g1, fun q hq => ?_⟩
            rw [setSpace_pkts, hsid, if_pos rfl] at hq
            have hq : q ∈ (ackedSpace sp rs top).pkts := hq
            rw [epk] at hq
            obtain ⟨g3, g4⟩ := hmemk q hq
            intro e
            have : q = a := hsp.sorted.unique g3 g1 e
            rw [this, g2] at g4; cases g4
          · unfold ackedPkts
            rw [List.map_reverse]
            unfold List.Nodup
            rw [List.pairwise_reverse]
            exact List.Pairwise.imp (fun h => h.symm) (sorted_keys_nodup (hsp.sorted.filter (inRanges rs)))
        have := Moves.comp h0.below hc2.below m1 d4
        rw [hack, List.nil_append, List.append_nil] at this
        exact ⟨this.evol, this.acked, this.ackedNodup, this.lost, this.lostNodup, this.probes, this.probesNodup⟩
      · intro sp₀ top₀ rest₀ e1 e2
        injection e1 with e1
        subst e1
        rw [hack] at e2
        injection e2 with e2 _
        subst e2
        refine ⟨r'.lossDelay, cd, sp', ?_, rfl, d5, hlost.symm, d6, rfl, fun j hj => ?_⟩
        · unfold Sys.setSpace; simp
        · unfold Sys.setSpace; simp only; rw [if_neg hj]
      · intro hc; cases hc

/-- Loss detection forgets only packets that were lost. -/
theorem Fwd.detect {id : SpaceId} {sp sp' : Space} {now ld cd : Nat} (hs : s.spaces id = some sp) (h : sp'.pkts = detectedPkts sp now ld cd) :
    Fwd s [] (detectedLost sp now ld cd) (s.setSpace id (some sp')) := by
  intro j p hp hl
  by_cases hj : j = id
  · subst hj
    rw [pkts_some hs] at hp
    have hf : p ∈ sp.pkts.filter fun p => !p.expired now cd := by
      refine List.mem_filter.mpr ⟨hp, ?_⟩
      unfold Pkt.expired
      rw [hl]
      rfl
    by_cases hn : newlyLost (sp.largestAcked.getD 0) now ld p = true
    · refine .inr (.inl ⟨markLost (sp.largestAcked.getD 0) now ld p, ?_, .mark ..⟩)
      unfold detectedLost
      exact List.mem_map_of_mem (List.mem_filter.mpr ⟨hf, hn⟩)
    · refine .inr (.inr ⟨p, ?_, .refl p, hl⟩)
      rw [setSpace_pkts, if_pos rfl]
      show p ∈ sp'.pkts
      rw [h]
      refine List.mem_map.mpr ⟨p, hf, ?_⟩
      unfold markLost
      rw [if_neg]
      intro hc
      exact hn (decide_eq_true hc)
  · refine .inr (.inr ⟨p, ?_, .refl p, hl⟩)
    rw [setSpace_pkts, if_neg hj]
    exact hp

/-- No packet is left that should have been found lost. -/
def Checked (now ld : Nat) (sp : Space) : Prop := ∀ p ∈ sp.pkts, p.lost = none → ¬ LossDue (sp.largestAcked.getD 0) now ld p

theorem Checked.detect {sp sp' : Space} {now ld cd : Nat} (h : sp'.pkts = detectedPkts sp now ld cd) (hla : sp'.largestAcked = sp.largestAcked) : Checked now ld sp' := by
  intro q hq hl hd
  rw [h] at hq
  rw [hla] at hd
  obtain ⟨p, hp, rfl⟩ := List.mem_map.mp hq
  unfold markLost at hl
  split at hl
  · cases hl
  · rename_i hc
    apply hc
    refine ⟨?_, hl⟩
    unfold LossDue at *
    rw [markLost_pn, markLost_sent] at hd
    exact hd

/-- What an ACK frame does, with details. -/
theorem Core.onAck_fwd (h : Core m clock next clean 0 s) {id : SpaceId} {rs : List (Nat × Nat)} {now : Nat} {s' : Sys} {lost : List Pkt}
    (h1 : ∀ sp top rest, s.spaces id = some sp → ackedPkts sp.pkts rs = top :: rest → ∃ ld cd sp', s'.spaces id = some sp' ∧ ld = s'.rtt.lossDelay ∧
        sp'.pkts = detectedPkts (ackedSpace sp rs top) now ld cd ∧ lost = detectedLost (ackedSpace sp rs top) now ld cd ∧
        sp'.largestAcked = (ackedSpace sp rs top).largestAcked ∧ s'.pto = none ∧ (∀ j, j ≠ id → s'.spaces j = s.spaces j))
    (h2 : ackedPkts (s.pkts id) rs = [] → lost = [] ∧ s'.pkts = s.pkts ∧ s'.pto = s.pto) : Fwd s (ackedPkts (s.pkts id) rs) lost s' := by
  cases hack : ackedPkts (s.pkts id) rs with
  | nil =>
    obtain ⟨e1, e2, _⟩ := h2 hack
    rw [e1]
    exact .refl e2
  | cons top rest =>
    cases hs : s.spaces id with
    | none => rw [pkts_none hs] at hack; cases hack
    | some sp =>
      rw [pkts_some hs] at hack
      obtain ⟨ld, cd, sp', e1, e2, e3, e4, e5, e6, e7⟩ := h1 sp top rest hs hack
      have hs1 : (s.setSpace id (some (ackedSpace sp rs top))).spaces id = some (ackedSpace sp rs top) := by unfold Sys.setSpace; simp
      have f2 := Fwd.detect (s := s.setSpace id (some (ackedSpace sp rs top))) hs1 e3
      rw [setSpace_setSpace] at f2
      have f1 : Fwd s (top :: rest) [] (s.setSpace id (some (ackedSpace sp rs top))) := by
        intro j p hp hl
        by_cases hj : j = id
        · subst hj
          rw [pkts_some hs] at hp
          cases hr : inRanges rs p with
          | true =>
            refine .inl ?_
            rw [← hack]
            exact List.mem_reverse.mpr (List.mem_filter.mpr ⟨hp, hr⟩)
          | false =>
            refine .inr (.inr ⟨p, ?_, .refl p, hl⟩)
            rw [setSpace_pkts, if_pos rfl]
            show p ∈ (ackedSpace sp rs top).pkts
            have epk : (ackedSpace sp rs top).pkts = keptPkts sp.pkts rs := by unfold ackedSpace; simp only; split <;> rfl
            rw [epk]
            exact List.mem_filter.mpr ⟨hp, by simp [hr]⟩
        · refine .inr (.inr ⟨p, ?_, .refl p, hl⟩)
          rw [setSpace_pkts, if_neg hj]
          exact hp
      have f3 := Fwd.comp f1 f2
      have ep : (s.setSpace id (some sp')).pkts = s'.pkts := by
        funext j
        rw [setSpace_pkts]
        split
        · rename_i hj
          rw [hj, pkts_some e1]
        · rename_i hj
          unfold Sys.pkts
          rw [e7 j hj]
      rw [List.nil_append, ← e4] at f3
      intro j p hp hl
      rcases f3 j p hp hl with h | h | h
      · exact .inl h
      · exact .inr (.inl h)
      · rw [ep] at h; exact .inr (.inr h)

/-! ## Timeouts -/

/-- The reason for which a packet is declared lost on a timeout. -/
def DueIn (s : Sys) (now : Nat) (l : Pkt) : Prop :=
  ∃ sp n, s.spaces l.pt.space = some sp ∧ sp.largestAcked = some n ∧ LossDue n now s.rtt.lossDelay l

theorem detectedLost_due {clock next : Nat} {id : SpaceId} {sp : Space} (h : SpOK clock next id sp) {now ld cd : Nat} :
    ∀ l ∈ detectedLost sp now ld cd, l.pt.space = id ∧ ∃ n, sp.largestAcked = some n ∧ LossDue n now ld l := by
  intro l hl
  unfold detectedLost at hl
  obtain ⟨p, hp, rfl⟩ := List.mem_map.mp hl
  obtain ⟨hp1, hp2⟩ := List.mem_filter.mp hp
  obtain ⟨hd, hn⟩ := of_decide_eq_true hp2
  refine ⟨by rw [markLost_pt]; exact h.pt p (List.mem_filter.mp hp1).1, ?_⟩
  cases hla : sp.largestAcked with
  | none => rw [hla] at hd; exact absurd hd.1 (Nat.not_lt_zero _)
  | some n =>
    refine ⟨n, rfl, ?_⟩
    rw [hla] at hd
    unfold LossDue at *
    rw [markLost_pn, markLost_sent]
    exact hd

/-- Packets are kept or removed, and no more of them are marked as handed back for probing. -/
def Sub (s s' : Sys) : Prop :=
  ∀ id, (∀ q ∈ s'.pkts id, ∃ p ∈ s.pkts id, q.pt = p.pt ∧ q.pn = p.pn ∧ q.pto = p.pto) ∧ total (·.len) (s'.pkts id) ≤ total (·.len) (s.pkts id)

theorem Sub.refl {s s' : Sys} (h : s'.pkts = s.pkts) : Sub s s' := by
  intro id
  rw [h]
  exact ⟨fun q hq => ⟨q, hq, rfl, rfl, rfl⟩, Nat.le_refl _⟩

theorem Sub.trans {a b c : Sys} (h : Sub a b) (k : Sub b c) : Sub a c := by
  intro id
  refine ⟨fun r hr => ?_, Nat.le_trans (k id).2 (h id).2⟩
  obtain ⟨q, hq, e1, e2, e3⟩ := (k id).1 r hr
  obtain ⟨p, hp, e4, e5, e6⟩ := (h id).1 q hq
  exact ⟨p, hp, e1.trans e4, e2.trans e5, e3.trans e6⟩

theorem detectedPkts_sub (sp : Space) (now ld cd : Nat) :
    (∀ q ∈ detectedPkts sp now ld cd, ∃ p ∈ sp.pkts, q.pt = p.pt ∧ q.pn = p.pn ∧ q.pto = p.pto) ∧ total (·.len) (detectedPkts sp now ld cd) ≤ total (·.len) sp.pkts := by
  unfold detectedPkts
  refine ⟨fun q hq => ?_, ?_⟩
  · obtain ⟨p, hp, rfl⟩ := List.mem_map.mp hq
    exact ⟨p, (List.mem_filter.mp hp).1, markLost_pt _ _ _ _, markLost_pn _ _ _ _, markLost_pto _ _ _ _⟩
  · rw [total_map]
    simp only [markLost_len]
    exact total_le_filter _ _ _

theorem Sub.space {s s' : Sys} {id : SpaceId} {sp sp' : Space} (hs : s.spaces id = some sp) (hs' : s'.spaces id = some sp') (ho : ∀ j, j ≠ id → s'.spaces j = s.spaces j)
    (h : (∀ q ∈ sp'.pkts, ∃ p ∈ sp.pkts, q.pt = p.pt ∧ q.pn = p.pn ∧ q.pto = p.pto) ∧ total (·.len) sp'.pkts ≤ total (·.len) sp.pkts) : Sub s s' := by
  intro j
  by_cases hj : j = id
  · rw [hj, pkts_some hs, pkts_some hs']
    exact h
  · have : s'.pkts j = s.pkts j := by unfold Sys.pkts; rw [ho j hj]
    rw [this]
    exact ⟨fun q hq => ⟨q, hq, rfl, rfl, rfl⟩, Nat.le_refl _⟩

/-- What a timeout does to the spaces. -/
structure TOut (now : Nat) (ids : List SpaceId) (s : Sys) (lost : List Pkt) (s' : Sys) : Prop where
  fwd : Fwd s [] lost s'
  due : ∀ l ∈ lost, DueIn s now l
  checked : ∀ id ∈ ids, ∀ sp, s'.spaces id = some sp → Checked now s.rtt.lossDelay sp
  la : ∀ id, (s'.spaces id).map (·.largestAcked) = (s.spaces id).map (·.largestAcked)
  other : ∀ id, id ∉ ids → s'.spaces id = s.spaces id
  rtt : s'.rtt = s.rtt
  stats : s'.stats = s.stats
  pto : s'.pto = s.pto
  mtu : s'.cc.mtu = s.cc.mtu
  conf : s'.confirmed = s.confirmed
  times : ∀ id, (s'.spaces id).map (·.lastEliciting) = (s.spaces id).map (·.lastEliciting)
  fast : s'.fastPto = s.fastPto
  sub : Sub s s'

theorem Core.timeoutSpace (h : Core m clock next clean 0 s) {now : Nat} (hc : clock ≤ now) (id : SpaceId) :
    ∃ s' lost, s.timeoutSpace now id = .ok (s', lost) ∧ Core m now next clean 0 s' ∧ Moves next s [] lost [] s' ∧
      (tot lostNum s' ≤ tot lostNum s + lost.length ∧ tot lostBytes s' ≤ tot lostBytes s + (lost.map (·.len)).sum) ∧ TOut now [id] s lost s' := by
  unfold Sys.timeoutSpace
  cases hs : s.spaces id with
  | none =>
    refine ⟨s, [], rfl, h.mono hc (fun _ => Nat.le_refl _), .quiet (.refl _ _), ⟨Nat.le_refl _, Nat.le_refl _⟩,
      ⟨.refl rfl, (fun _ h => by cases h), ?_, fun _ => rfl, fun _ _ => rfl, rfl, rfl, rfl, rfl, rfl, fun _ => rfl, rfl, .refl rfl⟩⟩
    intro i hi sp hsp
    rw [List.mem_singleton] at hi
    rw [hi, hs] at hsp
    cases hsp
  | some sp =>
    simp only
    obtain ⟨sp', cc', d1, d2, d3, d4, d5, d6, d7, d8, d9⟩ := h.detect hs hc s.rtt.lossDelay s.ptoPeriod s.rtt.first sp.largestAckedSent (s.rtt.pto s.confirmed.isSome)
    rw [d1]
    simp only
    rw [d7, d2]
    have hle : sp'.lastEliciting = sp.lastEliciting := by
      obtain ⟨sp₂, e1, _, _, _, _, e2⟩ := (h.sp id sp hs).detectLost (ld := s.rtt.lossDelay) (cd := s.ptoPeriod) hc
      rw [d1] at e1
      injection e1 with e1
      injection e1 with e1 _
      rw [e1]; exact e2
    refine ⟨_, _, rfl, d3, ⟨d4.evol, d4.acked, d4.ackedNodup, d4.lost, d4.lostNodup, d4.probes, d4.probesNodup⟩, d8,
      ⟨Fwd.detect hs d5, ?_, ?_, ?_, ?_, rfl, rfl, rfl, d9, rfl, ?_, rfl, ?_⟩⟩
    · intro l hl
      obtain ⟨e1, n, e2, e3⟩ := detectedLost_due (h.sp id sp hs) l hl
      exact ⟨sp, n, by rw [e1]; exact hs, e2, e3⟩
    · intro i hi sp₂ hsp₂
      rw [List.mem_singleton] at hi
      have hsp₂ : (if i = id then some sp' else s.spaces i) = some sp₂ := hsp₂
      rw [if_pos hi] at hsp₂
      injection hsp₂ with hsp₂
      rw [← hsp₂]
      exact .detect d5 d6
    · intro i
      show (if i = id then some sp' else s.spaces i).map _ = _
      split
      · rename_i hi
        rw [hi, hs]
        simp [d6]
      · rfl
    · intro i hi
      rw [List.mem_singleton] at hi
      show (if i = id then some sp' else s.spaces i) = _
      rw [if_neg hi]
    · intro i
      show (if i = id then some sp' else s.spaces i).map _ = _
      split
      · rename_i hi
        rw [hi, hs]
        simp [hle]
      · rfl
    · exact Sub.space (sp' := sp') hs (if_pos rfl) (fun j hj => if_neg hj) (by rw [d5]; exact detectedPkts_sub _ _ _ _)

theorem Core.timeoutSpaces : ∀ (ids : List SpaceId) {clock : Nat} {s : Sys} (_ : Core m clock next clean 0 s) {now : Nat} (_ : clock ≤ now) (_ : ids.Nodup),
    ∃ s' lost, s.timeoutSpaces now ids = .ok (s', lost) ∧ Core m now next clean 0 s' ∧ Moves next s [] lost [] s' ∧
      (tot lostNum s' ≤ tot lostNum s + lost.length ∧ tot lostBytes s' ≤ tot lostBytes s + (lost.map (·.len)).sum) ∧ TOut now ids s lost s' := by
  intro ids
  induction ids with
  | nil =>
    intro clock s h now hc _
    exact ⟨s, [], rfl, h.mono hc (fun _ => Nat.le_refl _), .quiet (.refl _ _), ⟨Nat.le_refl _, Nat.le_refl _⟩,
      ⟨.refl rfl, (fun _ h => by cases h), (fun _ h => by cases h), fun _ => rfl, fun _ _ => rfl, rfl, rfl, rfl, rfl, rfl, fun _ => rfl, rfl, .refl rfl⟩⟩
  | cons id ids ih =>
    intro clock s h now hc hnd
    rw [List.nodup_cons] at hnd
    obtain ⟨s₁, l₁, a1, a2, a3, ⟨a4, a5⟩, a6⟩ := h.timeoutSpace hc id
    obtain ⟨s₂, l₂, b1, b2, b3, ⟨b4, b5⟩, b6⟩ := ih a2 (Nat.le_refl now) hnd.2
    unfold Sys.timeoutSpaces
    rw [a1]
    simp only
    rw [b1]
    refine ⟨s₂, l₁ ++ l₂, rfl, b2, Moves.comp h.below a2.below a3 b3, ⟨?_, ?_⟩, ⟨a6.fwd.comp b6.fwd, ?_, ?_, fun i => (b6.la i).trans (a6.la i), ?_,
      b6.rtt.trans a6.rtt, b6.stats.trans a6.stats, b6.pto.trans a6.pto, b6.mtu.trans a6.mtu, b6.conf.trans a6.conf, fun i => (b6.times i).trans (a6.times i), b6.fast.trans a6.fast, a6.sub.trans b6.sub⟩⟩
    · rw [List.length_append]; omega
    · rw [List.map_append, List.sum_append]; omega
    · intro l hl
      rcases List.mem_append.mp hl with hl | hl
      · exact a6.due l hl
      · obtain ⟨sp, n, e1, e2, e3⟩ := b6.due l hl
        rw [a6.rtt] at e3
        have hla := a6.la l.pt.space
        rw [e1] at hla
        cases hs : s.spaces l.pt.space with
        | none => rw [hs] at hla; cases hla
        | some sp₀ =>
          rw [hs] at hla
          simp only [Option.map_some, Option.some.injEq] at hla
          exact ⟨sp₀, n, hs, hla ▸ e2, e3⟩
    · intro i hi sp hsp
      rcases List.mem_cons.mp hi with rfl | hi
      · rw [b6.other i hnd.1] at hsp
        exact a6.checked i (List.mem_singleton.mpr rfl) sp hsp
      · have := b6.checked i hi sp hsp
        rw [a6.rtt] at this
        exact this
    · intro i hi
      rw [List.mem_cons, not_or] at hi
      rw [b6.other i hi.2, a6.other i (by rw [List.mem_singleton]; exact hi.1)]

theorem Space.ptoBase_ok {next : Nat} {id : SpaceId} {sp : Space} (h : SpOK clock next id sp) : ∃ b, sp.ptoBase = .ok b := by
  unfold Space.ptoBase
  have := h.base
  split
  · cases hle : sp.lastEliciting with
    | none => exact absurd hle (this (by assumption))
    | some t => exact ⟨_, rfl⟩
  · split
    · exact ⟨_, rfl⟩
    · exact ⟨_, rfl⟩

theorem Core.ptoTime (h : Core m clock next clean x s) (id : SpaceId) : ∃ t, s.ptoTime id = .ok t := by
  unfold Sys.ptoTime
  cases hs : s.spaces id with
  | none => exact ⟨none, rfl⟩
  | some sp =>
    obtain ⟨b, hb⟩ := Space.ptoBase_ok (h.sp id sp hs)
    simp only
    rw [hb]
    exact ⟨_, rfl⟩

theorem Core.ptoScan (h : Core m clock next clean x s) (now : Nat) : ∀ ids, ∃ allow due, s.ptoScan now ids = .ok (allow, due) ∧ ∀ i ∈ due, i ∈ allow := by
  intro ids
  induction ids with
  | nil => exact ⟨[], [], rfl, fun _ h => by cases h⟩
  | cons id ids ih =>
    obtain ⟨allow, due, h1, h2⟩ := ih
    obtain ⟨t, ht⟩ := h.ptoTime id
    unfold Sys.ptoScan
    rw [ht]
    simp only
    rw [h1]
    simp only
    cases t with
    | none => exact ⟨allow, due, rfl, h2⟩
    | some t =>
      simp only
      refine ⟨_, _, rfl, ?_⟩
      intro i hi
      split at hi
      · exact List.mem_cons_of_mem _ (h2 i hi)
      · rcases List.mem_cons.mp hi with rfl | hi
        · exact List.mem_cons_self
        · exact List.mem_cons_of_mem _ (h2 i hi)

/-- Taking packets for probing changes flags only. -/
theorem ptoTake_strip (cap : Nat) : ∀ (ps : List Pkt) (size : Nat), (ptoTake cap size ps).1.map Pkt.strip = ps.map Pkt.strip := by
  intro ps
  induction ps with
  | nil => intro size; rfl
  | cons p ps ih =>
    intro size
    unfold ptoTake
    split
    · simp only
      split
      · simp only [List.map_cons]; rw [ih]; rfl
      · rfl
    · simp only [List.map_cons]; rw [ih]

theorem ptoTake_mem (cap : Nat) : ∀ (ps : List Pkt) (size : Nat), ∀ q ∈ (ptoTake cap size ps).1, ∃ p ∈ ps, q = p ∨ (q = p.marked ∧ p.ptoReady = true) := by
  intro ps
  induction ps with
  | nil => intro size q hq; cases hq
  | cons p ps ih =>
    intro size q hq
    unfold ptoTake at hq
    split at hq
    · rename_i hr
      simp only at hq
      split at hq
      · rcases List.mem_cons.mp hq with rfl | hq
        · exact ⟨p, List.mem_cons_self, .inr ⟨rfl, hr⟩⟩
        · obtain ⟨p', h1, h2⟩ := ih _ q hq
          exact ⟨p', List.mem_cons_of_mem _ h1, h2⟩
      · rcases List.mem_cons.mp hq with rfl | hq
        · exact ⟨p, List.mem_cons_self, .inr ⟨rfl, hr⟩⟩
        · exact ⟨q, List.mem_cons_of_mem _ hq, .inl rfl⟩
    · rcases List.mem_cons.mp hq with rfl | hq
      · exact ⟨q, List.mem_cons_self, .inl rfl⟩
      · obtain ⟨p', h1, h2⟩ := ih _ q hq
        exact ⟨p', List.mem_cons_of_mem _ h1, h2⟩

theorem ptoTake_out (cap : Nat) : ∀ (ps : List Pkt) (size : Nat), (ptoTake cap size ps).2.1.Sublist (ptoTake cap size ps).1 ∧
    ∀ q ∈ (ptoTake cap size ps).2.1, ∃ p ∈ ps, q = p.marked ∧ p.ptoReady = true := by
  intro ps
  induction ps with
  | nil => intro size; exact ⟨List.Sublist.refl _, fun q hq => by cases hq⟩
  | cons p ps ih =>
    intro size
    unfold ptoTake
    split
    · rename_i hr
      simp only
      split
      · obtain ⟨h1, h2⟩ := ih (size + p.len)
        refine ⟨List.Sublist.cons_cons _ h1, fun q hq => ?_⟩
        rcases List.mem_cons.mp hq with rfl | hq
        · exact ⟨p, List.mem_cons_self, rfl, hr⟩
        · obtain ⟨p', h3, h4⟩ := h2 q hq
          exact ⟨p', List.mem_cons_of_mem _ h3, h4⟩
      · exact ⟨List.nil_sublist _, fun q hq => by cases hq⟩
    · obtain ⟨h1, h2⟩ := ih size
      refine ⟨List.Sublist.cons _ h1, fun q hq => ?_⟩
      obtain ⟨p', h3, h4⟩ := h2 q hq
      exact ⟨p', List.mem_cons_of_mem _ h3, h4⟩

theorem Core.ptoCollect (cap : Nat) : ∀ (ids : List SpaceId) {s : Sys} (_ : Core m clock next clean 0 s) (size : Nat),
    Core m clock next clean 0 (s.ptoCollect cap size ids).1 ∧ Moves next s [] [] (s.ptoCollect cap size ids).2 (s.ptoCollect cap size ids).1 ∧
    (tot lostNum (s.ptoCollect cap size ids).1 = tot lostNum s ∧ tot lostBytes (s.ptoCollect cap size ids).1 = tot lostBytes s) ∧
    (s.ptoCollect cap size ids).1.stats = s.stats ∧ (s.ptoCollect cap size ids).1.pto = s.pto := by
  intro ids
  induction ids with
  | nil => intro s h size; exact ⟨h, .quiet (.refl _ _), ⟨rfl, rfl⟩, rfl, rfl⟩
  | cons id ids ih =>
    intro s h size
    unfold Sys.ptoCollect
    cases hs : s.spaces id with
    | none => exact ih h size
    | some sp =>
      simp only
      have hsp := h.sp id sp hs
      have hstrip := ptoTake_strip cap sp.pkts size
      have hmem := ptoTake_mem cap sp.pkts size
      obtain ⟨ho1, ho2⟩ := ptoTake_out cap sp.pkts size
      have hsum : ∀ f : Pkt → Nat, (∀ p : Pkt, f p.strip = f p) → total f (ptoTake cap size sp.pkts).1 = total f sp.pkts := by
        intro f hf
        have h1 : ∀ l : List Pkt, total f l = total f (l.map Pkt.strip) := by
          intro l; rw [total_map]; exact total_congr (fun p _ => (hf p).symm)
        rw [h1, hstrip, ← h1]
      have hout : total outLen (ptoTake cap size sp.pkts).1 = total outLen sp.pkts := by
        -- the flags that count are not touched
        have : ∀ (ps : List Pkt) (size : Nat), total outLen (ptoTake cap size ps).1 = total outLen ps := by
          intro ps
          induction ps with
          | nil => intro _; rfl
          | cons p ps ih =>
            intro size
            unfold ptoTake
            have hm : outLen { p with pto := true } = outLen p := rfl
            split
            · simp only
              split
              · rw [total_cons, total_cons, ih, hm]
              · rw [total_cons, total_cons, hm]
            · rw [total_cons, total_cons, ih]
        exact this _ _
      have hok : SpOK clock (next id) id { sp with pkts := (ptoTake cap size sp.pkts).1 } := hsp.same hstrip
      have hev : ∀ q ∈ (ptoTake cap size sp.pkts).1, (∃ p ∈ sp.pkts, Evol p q) ∨ next id ≤ q.pn := by
        intro q hq
        obtain ⟨p, hp, e⟩ := hmem q hq
        refine .inl ⟨p, hp, ?_⟩
        rcases e with rfl | ⟨rfl, _⟩
        · exact .refl _
        · exact .marked _
      have hep : ∀ q ∈ (ptoTake cap size sp.pkts).1, (∃ p ∈ sp.pkts, q.primary = p.primary ∧ q.epoch = p.epoch) ∨
          ((q.primary = true ↔ q.epoch = some s.epoch) ∧ ∀ e, q.epoch = some e → e ≤ s.epoch) := by
        intro q hq
        obtain ⟨p, hp, e⟩ := hmem q hq
        refine .inl ⟨p, hp, ?_⟩
        rcases e with rfl | ⟨rfl, _⟩
        · exact ⟨rfl, rfl⟩
        · exact ⟨rfl, rfl⟩
      have hc1 : Core m clock next clean 0 (s.setSpace id (some { sp with pkts := (ptoTake cap size sp.pkts).1 })) :=
        h.replace hs (Nat.le_refl _) (fun _ => Nat.le_refl _) hok hev hep (fun _ v hv => ⟨v, hv, Nat.le_refl _⟩) (fun _ => by
          show total outLen (ptoTake cap size sp.pkts).1 + 0 = _; rw [hout])
      have m1 : Moves next s [] [] (ptoTake cap size sp.pkts).2.1 (s.setSpace id (some { sp with pkts := (ptoTake cap size sp.pkts).1 })) := by
        refine ⟨Core.evolSpace hs hev, (fun _ h => by cases h), .nil, (fun _ h => by cases h), .nil, ?_, ?_⟩
        · intro l hl
          obtain ⟨p, hp, e, hr⟩ := ho2 l hl
          have hsid : l.pt.space = id := by rw [e]; exact hsp.pt p hp
          have hr' : p.pto = false ∧ p.lost = none := by
            unfold Pkt.ptoReady at hr
            cases h1 : p.pto <;> cases h2 : p.lost <;> simp_all
          refine ⟨⟨p, by rw [hsid, pkts_some hs]; exact hp, by rw [e]; rfl, hr'.1, hr'.2⟩, fun q hq hpn => ?_⟩
          rw [setSpace_pkts, hsid, if_pos rfl] at hq
          have hq : q ∈ (ptoTake cap size sp.pkts).1 := hq
          have : q = l := hok.sorted.unique hq (ho1.subset hl) hpn
          rw [this, e]; rfl
        · exact sorted_keys_nodup (List.Pairwise.sublist ho1 hok.sorted)
      obtain ⟨i1, i2, ⟨i3, i4⟩, i5, i6⟩ := ih hc1 (ptoTake cap size sp.pkts).2.2
      have t1 := tot_setSpace lostNum s id (some { sp with pkts := (ptoTake cap size sp.pkts).1 })
      have t2 := tot_setSpace lostBytes s id (some { sp with pkts := (ptoTake cap size sp.pkts).1 })
      rw [pkts_some hs] at t1 t2
      simp only [hsum lostNum (fun _ => rfl), hsum lostBytes (fun _ => rfl)] at t1 t2
      exact ⟨i1, Moves.comp h.below hc1.below m1 i2, ⟨by omega, by omega⟩, i5, i6⟩

/-- A space without its packets. -/
def Space.bare (sp : Space) : Space := { sp with pkts := [] }

/-- What collecting packets for probing does. -/
structure Collected (cap size : Nat) (ids : List SpaceId) (s : Sys) (probes : List Pkt) (s' : Sys) : Prop where
  bare : ∀ id, (s'.spaces id).map Space.bare = (s.spaces id).map Space.bare
  back : ∀ id, ∀ q ∈ s'.pkts id, ∃ p ∈ s.pkts id, q = p ∨ (q = p.marked ∧ p.ptoReady = true)
  fwd : ∀ id, ∀ p ∈ s.pkts id, p ∈ s'.pkts id ∨ (p.ptoReady = true ∧ p.marked ∈ s'.pkts id)
  other : ∀ id, id ∉ ids → s'.spaces id = s.spaces id
  only : ∀ q ∈ probes, ∃ id ∈ ids, ∃ p ∈ s.pkts id, q = p.marked ∧ p.ptoReady = true
  all : size + (ids.map fun id => readySize (s.pkts id)).sum ≤ cap → ∀ id ∈ ids, ∀ p ∈ s.pkts id, p.ptoReady = true → p.marked ∈ probes
  one : ∀ id, ∀ a ∈ s.pkts id, ∀ b ∈ s.pkts id, a.ptoReady = true → b.ptoReady = true → a.marked ∈ s'.pkts id → b.marked ∈ s'.pkts id →
    a.marked ∉ probes → b.marked ∉ probes → a = b
  same : s' = { s with spaces := s'.spaces }

theorem mk?_of_not {p : Pkt} (h : p.ptoReady = false) : p.mk? = p := by unfold Pkt.mk?; rw [h]; rfl
theorem mk?_of {p : Pkt} (h : p.ptoReady = true) : p.mk? = p.marked := by unfold Pkt.mk?; rw [h]; rfl

theorem ptoTake_fwd (cap size : Nat) (ps : List Pkt) : ∀ p ∈ ps, p ∈ (ptoTake cap size ps).1 ∨ (p.ptoReady = true ∧ p.marked ∈ (ptoTake cap size ps).1) := by
  have hk : ∀ (l : List Pkt), ∀ p ∈ l, p ∈ l.map Pkt.mk? ∨ (p.ptoReady = true ∧ p.marked ∈ l.map Pkt.mk?) := by
    intro l p hp
    have := List.mem_map_of_mem (f := Pkt.mk?) hp
    cases hr : p.ptoReady with
    | true => rw [mk?_of hr] at this; exact .inr ⟨rfl, this⟩
    | false => rw [mk?_of_not hr] at this; exact .inl this
  intro p hp
  rcases ptoTake_ok cap ps size with ⟨e, _⟩ | ⟨a, y, b, e1, e2, _, e⟩
  · rw [e]; exact hk ps p hp
  · rw [e]
    rw [e1] at hp
    rcases List.mem_append.mp hp with hp | hp
    · rcases hk a p hp with h | ⟨h1, h2⟩
      · exact .inl (List.mem_append_left _ h)
      · exact .inr ⟨h1, List.mem_append_left _ h2⟩
    · rcases List.mem_cons.mp hp with rfl | hp
      · exact .inr ⟨e2, List.mem_append_right _ List.mem_cons_self⟩
      · exact .inl (List.mem_append_right _ (List.mem_cons_of_mem _ hp))

/-- If everything fits, everything that is ready is handed out. -/
theorem ptoTake_all {cap size : Nat} {ps : List Pkt} (h : size + readySize ps ≤ cap) :
    (ptoTake cap size ps).2.1 = (ps.filter Pkt.ptoReady).map Pkt.marked ∧ (ptoTake cap size ps).2.2 = size + readySize ps := by
  rcases ptoTake_ok cap ps size with ⟨e, _⟩ | ⟨a, y, b, e1, e2, e3, _⟩
  · rw [e]; exact ⟨rfl, rfl⟩
  · exfalso
    rw [e1] at h
    unfold readySize at h e3
    rw [total_append, total_cons, if_pos e2] at h
    omega

/-- At most one packet that is marked is not handed out. -/
theorem ptoTake_one {cap size : Nat} {ps : List Pkt} (hs : Sorted ps) : ∀ a ∈ ps, ∀ b ∈ ps, a.ptoReady = true → b.ptoReady = true →
    a.marked ∈ (ptoTake cap size ps).1 → b.marked ∈ (ptoTake cap size ps).1 →
    a.marked ∉ (ptoTake cap size ps).2.1 → b.marked ∉ (ptoTake cap size ps).2.1 → a = b := by
  intro a ha b hb ra rb ma mb na nb
  rcases ptoTake_ok cap ps size with ⟨e, _⟩ | ⟨l, y, r, e1, e2, _, e⟩
  · rw [e] at na
    exact absurd (List.mem_map_of_mem (List.mem_filter.mpr ⟨ha, ra⟩)) na
  · have key : ∀ c ∈ ps, c.ptoReady = true → c.marked ∈ (ptoTake cap size ps).1 → c.marked ∉ (ptoTake cap size ps).2.1 → c = y := by
      intro c hc rc mc nc
      rw [e] at mc nc
      have hnl : c ∉ l := fun h => nc (List.mem_map_of_mem (List.mem_filter.mpr ⟨h, rc⟩))
      rw [e1] at hc
      rcases List.mem_append.mp hc with hc | hc
      · exact absurd hc hnl
      · rcases List.mem_cons.mp hc with h | hc
        · exact h
        · -- behind the packet that did not fit nothing is marked
          exfalso
          have hy : y ∈ ps := by rw [e1]; exact List.mem_append_right _ List.mem_cons_self
          have hcp : c ∈ ps := by rw [e1]; exact List.mem_append_right _ (List.mem_cons_of_mem _ hc)
          have hsr : Sorted (y :: r) := (List.pairwise_append.mp (e1 ▸ hs)).2.1
          have hlt : y.pn < c.pn := (List.pairwise_cons.mp hsr).1 c hc
          rcases List.mem_append.mp mc with mc | mc
          · obtain ⟨d, hd, he⟩ := List.mem_map.mp mc
            have hdp : d ∈ ps := by rw [e1]; exact List.mem_append_left _ hd
            have hpn : d.pn = c.pn := by
              have : d.mk?.pn = c.marked.pn := by rw [he]
              unfold Pkt.mk? at this
              split at this <;> exact this
            exact hnl (hs.unique hdp hcp hpn ▸ hd)
          · rcases List.mem_cons.mp mc with h | mc
            · have : c.pn = y.pn := by have := congrArg Pkt.pn h; exact this
              omega
            · have hcp' : c.marked ∈ ps := by rw [e1]; exact List.mem_append_right _ (List.mem_cons_of_mem _ mc)
              have : c.marked = c := hs.unique hcp' hcp rfl
              have hpt : c.pto = true := by rw [← this]; rfl
              unfold Pkt.ptoReady at rc
              rw [hpt] at rc
              cases rc
    rw [key a ha ra ma na, key b hb rb mb nb]

theorem Core.collected (cap : Nat) : ∀ (ids : List SpaceId) {s : Sys} (_ : Core m clock next clean 0 s) (size : Nat) (_ : ids.Nodup),
    Collected cap size ids s (s.ptoCollect cap size ids).2 (s.ptoCollect cap size ids).1 := by
  intro ids
  induction ids with
  | nil =>
    intro s h size _
    exact ⟨fun _ => rfl, fun _ q hq => ⟨q, hq, .inl rfl⟩, fun _ p hp => .inl hp, fun _ _ => rfl, (fun _ h => by cases h), (fun _ _ h => by cases h),
      (fun id a ha b hb ra rb ma mb na nb => by
        have key : ∀ c ∈ s.pkts id, c.ptoReady = true → c.marked ∈ s.pkts id → False := by
          intro c hc rc mc
          cases hs : s.spaces id with
          | none => rw [pkts_none hs] at hc; cases hc
          | some sp =>
            rw [pkts_some hs] at hc mc
            have : c.marked = c := (h.sp id sp hs).sorted.unique mc hc rfl
            have hpt : c.pto = true := by rw [← this]; rfl
            unfold Pkt.ptoReady at rc
            rw [hpt] at rc
            cases rc
        exact (key a ha ra ma).elim), rfl⟩
  | cons id ids ih =>
    intro s h size hnd
    rw [List.nodup_cons] at hnd
    unfold Sys.ptoCollect
    cases hs : s.spaces id with
    | none =>
      obtain ⟨i1, i2, i3, i4, i5, i6, i7, i8⟩ := ih h size hnd.2
      refine ⟨i1, i2, i3, fun j hj => i4 j (fun hc => hj (List.mem_cons_of_mem _ hc)), ?_, ?_, i7, i8⟩
      · intro q hq
        obtain ⟨j, hj, r⟩ := i5 q hq
        exact ⟨j, List.mem_cons_of_mem _ hj, r⟩
      · intro hle j hj p hp
        rcases List.mem_cons.mp hj with rfl | hj
        · rw [pkts_none hs] at hp; cases hp
        · refine i6 ?_ j hj p hp
          rw [List.map_cons, List.sum_cons] at hle
          omega
    | some sp =>
      simp only
      have hsp := h.sp id sp hs
      have hc1 : Core m clock next clean 0 (s.setSpace id (some { sp with pkts := (ptoTake cap size sp.pkts).1 })) := by
        -- as in `Core.ptoCollect` for the single space
        have := (Core.ptoCollect cap [id] h size).1
        unfold Sys.ptoCollect at this
        rw [hs] at this
        exact this
      have hi := ih hc1 (ptoTake cap size sp.pkts).2.2 hnd.2
      generalize hs1 : s.setSpace id (some { sp with pkts := (ptoTake cap size sp.pkts).1 }) = s₁ at hi hc1 ⊢
      have hp1 : s₁.pkts id = (ptoTake cap size sp.pkts).1 := by rw [← hs1, setSpace_pkts, if_pos rfl]
      have hp2 : ∀ j, j ≠ id → s₁.pkts j = s.pkts j := by intro j hj; rw [← hs1, setSpace_pkts, if_neg hj]
      have hsj : ∀ j, j ≠ id → s₁.spaces j = s.spaces j := by intro j hj; rw [← hs1]; unfold Sys.setSpace; simp only; rw [if_neg hj]
      have hsi : s₁.spaces id = some { sp with pkts := (ptoTake cap size sp.pkts).1 } := by rw [← hs1]; unfold Sys.setSpace; simp
      obtain ⟨i1, i2, i3, i4, i5, i6, i7, i8⟩ := hi
      generalize hq' : s₁.ptoCollect cap (ptoTake cap size sp.pkts).2.2 ids = r at *
      have hfin : r.1.pkts id = (ptoTake cap size sp.pkts).1 := by
        unfold Sys.pkts
        rw [i4 id hnd.1, hsi]
      have hneq : ∀ j ∈ ids, j ≠ id := fun j hj hc => hnd.1 (hc ▸ hj)
      obtain ⟨ho1, ho2⟩ := ptoTake_out cap sp.pkts size
      refine ⟨?_, ?_, ?_, ?_, ?_, ?_, ?_, ?_⟩
      · intro j
        rw [i1 j]
        by_cases hj : j = id
        · rw [hj, hsi, hs]; rfl
        · rw [hsj j hj]
      · intro j q hq
        by_cases hj : j = id
        · subst hj
          rw [hfin] at hq
          rw [pkts_some hs]
          exact ptoTake_mem cap sp.pkts size q hq
        · obtain ⟨p, hp, e⟩ := i2 j q hq
          exact ⟨p, by rw [← hp2 j hj]; exact hp, e⟩
      · intro j p hp
        by_cases hj : j = id
        · subst hj
          rw [pkts_some hs] at hp
          rw [hfin]
          exact ptoTake_fwd cap size sp.pkts p hp
        · exact i3 j p (by rw [hp2 j hj]; exact hp)
      · intro j hj
        rw [List.mem_cons, not_or] at hj
        rw [i4 j hj.2, hsj j hj.1]
      · intro q hq
        rcases List.mem_append.mp hq with hq | hq
        · obtain ⟨p, hp, e⟩ := ho2 q hq
          exact ⟨id, List.mem_cons_self, p, by rw [pkts_some hs]; exact hp, e⟩
        · obtain ⟨j, hj, p, hp, e⟩ := i5 q hq
          exact ⟨j, List.mem_cons_of_mem _ hj, p, by rw [← hp2 j (hneq j hj)]; exact hp, e⟩
      · intro hle j hj p hp hr
        rw [List.map_cons, List.sum_cons, pkts_some hs] at hle
        obtain ⟨t1, t2⟩ := ptoTake_all (cap := cap) (size := size) (ps := sp.pkts) (by omega)
        rcases List.mem_cons.mp hj with rfl | hj
        · rw [pkts_some hs] at hp
          refine List.mem_append_left _ ?_
          rw [t1]
          exact List.mem_map_of_mem (List.mem_filter.mpr ⟨hp, hr⟩)
        · refine List.mem_append_right _ (i6 ?_ j hj p (by rw [hp2 j (hneq j hj)]; exact hp) hr)
          have hm : (ids.map fun i => readySize (s₁.pkts i)) = (ids.map fun i => readySize (s.pkts i)) :=
            List.map_congr_left (fun i hi => by rw [hp2 i (hneq i hi)])
          rw [t2, hm]
          omega
      · intro j a ha b hb ra rb ma mb na nb
        by_cases hj : j = id
        · subst hj
          rw [pkts_some hs] at ha hb
          rw [hfin] at ma mb
          exact ptoTake_one hsp.sorted a ha b hb ra rb ma mb (fun hc => na (List.mem_append_left _ hc)) (fun hc => nb (List.mem_append_left _ hc))
        · rw [← hp2 j hj] at ha hb
          exact i7 j a ha b hb ra rb ma mb (fun hc => na (List.mem_append_right _ hc)) (fun hc => nb (List.mem_append_right _ hc))
      · rw [i8, ← hs1]
        rfl

theorem Core.prime (h : Core m clock next clean 0 s) {now : Nat} (hsKeys : Bool) :
    Core m clock next clean 0 (s.prime now hsKeys) ∧ (s.prime now hsKeys).pkts = s.pkts ∧ (s.prime now hsKeys).stats = s.stats ∧ (s.prime now hsKeys).pto = s.pto := by
  unfold Sys.prime
  split
  · rename_i p i hh e1 e2 e3
    split
    · have hsp := h.sp _ hh e3
      refine ⟨?_, ?_, rfl, rfl⟩
      · refine h.replace e3 (Nat.le_refl _) (fun _ => Nat.le_refl _) ?_ (fun q hq => .inl ⟨q, hq, .refl q⟩) (fun q hq => .inl ⟨q, hq, rfl, rfl⟩)
          (fun _ v hv => ⟨v, hv, Nat.le_refl _⟩) (fun _ => rfl)
        exact ⟨hsp.sid, hsp.sorted, hsp.timed, hsp.lostFirst, hsp.pn, hsp.sent, hsp.lostT, hsp.pt, hsp.inFl, (fun _ => by simp), hsp.la, hsp.laNone, hsp.lostLa⟩
      · funext j
        rw [setSpace_pkts]
        split
        · rename_i hj
          rw [hj, pkts_some e3]
        · rfl
    · exact ⟨h, rfl, rfl, rfl⟩
  · exact ⟨h, rfl, rfl, rfl⟩

theorem Core.maybeFirePto (h : Core m clock next clean 0 s) (hst : StatsOK s) (now : Nat) (hsKeys : Bool) :
    ∃ s' probes, s.maybeFirePto now hsKeys = .ok (s', probes) ∧ Core m clock next clean 0 s' ∧ StatsOK s' ∧ Moves next s [] [] probes s' := by
  obtain ⟨allow, due, h1, h2⟩ := h.ptoScan now allSpaces
  unfold Sys.maybeFirePto
  rw [h1]
  simp only
  cases due with
  | nil => exact ⟨s, [], rfl, h, hst, .quiet (.refl _ _)⟩
  | cons id rest =>
    simp only
    obtain ⟨c1, c2, ⟨c3, c4⟩, c5, c6⟩ := Core.ptoCollect (maxPtoPackets * s.cc.mtu) (retransmitSet (id :: rest)) h 0
    generalize s.ptoCollect (maxPtoPackets * s.cc.mtu) 0 (retransmitSet (id :: rest)) = r at *
    have hfire : ∃ pt, r.1.firePto id allow = .ok { r.1 with pto := some pt } ∧ pt.packets ≤ maxPtoPackets := by
      unfold Sys.firePto
      rw [if_pos (by rw [List.contains_iff_mem]; exact h2 id List.mem_cons_self)]
      cases r.1.pto with
      | none => exact ⟨_, rfl, Nat.le_refl _⟩
      | some p => exact ⟨_, rfl, Nat.le_refl _⟩
    obtain ⟨pt, f1, f2⟩ := hfire
    rw [f1]
    simp only
    have hc2 := c1.setPto (pto := some pt) (fun p hp => by injection hp with hp; exact hp ▸ f2)
    have hs2 : StatsOK { r.1 with pto := some pt } :=
      ⟨by show tot lostNum r.1 ≤ r.1.stats.lost; rw [c3, c5]; exact hst.lost, by show tot lostBytes r.1 ≤ r.1.stats.bytesLost; rw [c4, c5]; exact hst.bytes⟩
    have hm2 : Moves next s [] [] r.2 { r.1 with pto := some pt } := ⟨c2.evol, c2.acked, c2.ackedNodup, c2.lost, c2.lostNodup, c2.probes, c2.probesNodup⟩
    refine ⟨_, _, rfl, ?_⟩
    split
    · obtain ⟨p1, p2, p3, p4⟩ := hc2.prime (now := now) hsKeys
      refine ⟨p1, ⟨?_, ?_⟩, ⟨?_, ?_, hm2.ackedNodup, ?_, hm2.lostNodup, ?_, hm2.probesNodup⟩⟩
      · unfold tot; rw [p2, p3]; exact hs2.lost
      · unfold tot; rw [p2, p3]; exact hs2.bytes
      · rw [p2]; exact hm2.evol
      · intro _ h; cases h
      · intro _ h; cases h
      · rw [p2]; exact hm2.probes
    · exact ⟨hc2, hs2, hm2⟩

theorem Core.onTimeout (h : Core m clock next clean 0 s) (hst : StatsOK s) {now : Nat} (hc : clock ≤ now) (hsKeys : Bool) :
    ∃ s' lost probes, s.onTimeout now hsKeys = .ok (s', lost, probes) ∧ Core m now next clean 0 s' ∧ StatsOK s' ∧ Moves next s [] lost probes s' := by
  obtain ⟨s₁, lost, a1, a2, a3, ⟨a4, a5⟩, a6⟩ := h.timeoutSpaces allSpaces hc (by decide)
  unfold Sys.onTimeout
  rw [a1]
  simp only
  have hc1 : Core m now next clean 0 { s₁ with stats := s₁.stats.countLost lost } :=
    ⟨a2.sp, a2.cc, a2.ccs, a2.maybe, a2.maybes, a2.rtt, a2.rtts, a2.conf, a2.hs, a2.app, a2.pto, a2.exact, a2.epoch, a2.epochLe⟩
  have hs1 : StatsOK { s₁ with stats := s₁.stats.countLost lost } := by
    have := hst.lost
    have := hst.bytes
    constructor
    · show tot lostNum s₁ ≤ s₁.stats.lost + lost.length
      rw [a6.stats]; omega
    · show tot lostBytes s₁ ≤ s₁.stats.bytesLost + (lost.map (·.len)).sum
      rw [a6.stats]; omega
  obtain ⟨s₂, probes, b1, b2, b3, b4⟩ := hc1.maybeFirePto hs1 now hsKeys
  rw [b1]
  have a3' : Moves next s [] lost [] { s₁ with stats := s₁.stats.countLost lost } := ⟨a3.evol, a3.acked, a3.ackedNodup, a3.lost, a3.lostNodup, a3.probes, a3.probesNodup⟩
  have := Moves.comp h.below hc1.below a3' b4
  rw [List.append_nil, List.nil_append] at this
  exact ⟨s₂, lost, probes, rfl, b2, b3, this⟩

end Neqo.Rec
