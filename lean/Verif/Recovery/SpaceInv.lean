import Verif.Recovery.Lemmas

/-! # The invariant of one packet number space -/
namespace Neqo.Rec

/-- What holds of a space: `clock` is the time, `next` is above all packet numbers. -/
structure SpOK (clock next : Nat) (id : SpaceId) (sp : Space) : Prop where
  sid : sp.id = id
  sorted : Sorted sp.pkts
  timed : Timed sp.pkts
  lostFirst : LostFirst sp.pkts
  pn : ∀ p ∈ sp.pkts, p.pn < next
  sent : ∀ p ∈ sp.pkts, p.sent ≤ clock
  lostT : ∀ p ∈ sp.pkts, ∀ t, p.lost = some t → t ≤ clock
  pt : ∀ p ∈ sp.pkts, p.pt.space = id
  inFl : sp.inFlight = countEliciting sp.pkts
  base : 0 < sp.inFlight → sp.lastEliciting ≠ none
  la : ∀ n, sp.largestAcked = some n → n < next ∧ ∃ u, sp.largestAckedSent = some u ∧ u ≤ clock ∧ ∀ p ∈ sp.pkts, n < p.pn → u ≤ p.sent
  laNone : sp.largestAcked = none → sp.largestAckedSent = none
  lostLa : ∀ p ∈ sp.pkts, p.lost ≠ none → ∃ n, sp.largestAcked = some n ∧ p.pn < n

theorem SpOK.new (id : SpaceId) : SpOK 0 0 id { id := id } where
  sid := rfl
  sorted := .nil
  timed := .nil
  lostFirst := .nil
  pn := fun p hp => by cases hp
  sent := fun p hp => by cases hp
  lostT := fun p hp => by cases hp
  pt := fun p hp => by cases hp
  inFl := rfl
  base := fun h => by cases h
  la := fun n h => by cases h
  laNone := fun _ => rfl
  lostLa := fun p hp => by cases hp

theorem SpOK.mono {clock clock' next next' id sp} (h : SpOK clock next id sp) (hc : clock ≤ clock') (hn : next ≤ next') :
    SpOK clock' next' id sp :=
  { h with
    pn := fun p hp => Nat.lt_of_lt_of_le (h.pn p hp) hn
    sent := fun p hp => Nat.le_trans (h.sent p hp) hc
    lostT := fun p hp t ht => Nat.le_trans (h.lostT p hp t ht) hc
    la := fun n hl => by
      obtain ⟨a, u, b, c, d⟩ := h.la n hl
      exact ⟨Nat.lt_of_lt_of_le a hn, u, b, Nat.le_trans c hc, d⟩ }

/-- Keep some packets, and adjust the count. -/
theorem SpOK.filter {clock next id sp} (h : SpOK clock next id sp) (q : Pkt → Bool) :
    SpOK clock next id { sp with pkts := sp.pkts.filter q, inFlight := countEliciting (sp.pkts.filter q) } where
  sid := h.sid
  sorted := List.Pairwise.filter q h.sorted
  timed := List.Pairwise.filter q h.timed
  lostFirst := List.Pairwise.filter q h.lostFirst
  pn := fun p hp => h.pn p (List.mem_filter.mp hp).1
  sent := fun p hp => h.sent p (List.mem_filter.mp hp).1
  lostT := fun p hp => h.lostT p (List.mem_filter.mp hp).1
  pt := fun p hp => h.pt p (List.mem_filter.mp hp).1
  inFl := rfl
  base := by
    intro hp
    apply h.base
    rw [h.inFl]
    simp only [countEliciting_eq] at hp ⊢
    have := total_le_filter (fun p => if p.eliciting then 1 else 0) q sp.pkts
    omega
  la := fun n hl => by
    obtain ⟨a, u, b, c, d⟩ := h.la n hl
    exact ⟨a, u, b, c, fun p hp => d p (List.mem_filter.mp hp).1⟩
  laNone := h.laNone
  lostLa := fun p hp => h.lostLa p (List.mem_filter.mp hp).1

/-- The packet without the flags that play no part in the invariant. -/
def Pkt.strip (p : Pkt) : Pkt := { p with pto := false, primary := false }

/-- The invariant does not depend on those flags. -/
theorem SpOK.same {clock next id sp} (h : SpOK clock next id sp) {ps : List Pkt} (e : ps.map Pkt.strip = sp.pkts.map Pkt.strip) :
    SpOK clock next id { sp with pkts := ps } := by
  have hmem : ∀ p ∈ ps, ∃ q ∈ sp.pkts, q.strip = p.strip := by
    intro p hp
    have : p.strip ∈ sp.pkts.map Pkt.strip := e ▸ List.mem_map_of_mem hp
    exact List.mem_map.mp this
  have hpw : ∀ {R : Pkt → Pkt → Prop}, (∀ a b, R a.strip b.strip ↔ R a b) → sp.pkts.Pairwise R → ps.Pairwise R := by
    intro R hR hp
    have h1 : (sp.pkts.map Pkt.strip).Pairwise R := by
      rw [List.pairwise_map]; exact List.Pairwise.imp (fun {a b} h => (hR a b).mpr h) hp
    rw [← e, List.pairwise_map] at h1
    exact List.Pairwise.imp (fun {a b} h => (hR a b).mp h) h1
  have hfield : ∀ {a b : Pkt}, a.strip = b.strip → a.pn = b.pn ∧ a.sent = b.sent ∧ a.lost = b.lost ∧ a.pt = b.pt ∧ a.eliciting = b.eliciting := by
    intro a b hab
    refine ⟨?_, ?_, ?_, ?_, ?_⟩
    · exact (congrArg Pkt.pn hab :)
    · exact (congrArg Pkt.sent hab :)
    · exact (congrArg Pkt.lost hab :)
    · exact (congrArg Pkt.pt hab :)
    · exact (congrArg Pkt.eliciting hab :)
  exact {
    sid := h.sid
    sorted := hpw (fun _ _ => Iff.rfl) h.sorted
    timed := hpw (fun _ _ => Iff.rfl) h.timed
    lostFirst := hpw (fun _ _ => Iff.rfl) h.lostFirst
    pn := fun p hp => by obtain ⟨q, hq, e⟩ := hmem p hp; rw [← (hfield e).1]; exact h.pn q hq
    sent := fun p hp => by obtain ⟨q, hq, e⟩ := hmem p hp; rw [← (hfield e).2.1]; exact h.sent q hq
    lostT := fun p hp => by obtain ⟨q, hq, e⟩ := hmem p hp; rw [← (hfield e).2.2.1]; exact h.lostT q hq
    pt := fun p hp => by obtain ⟨q, hq, e⟩ := hmem p hp; rw [← (hfield e).2.2.2.1]; exact h.pt q hq
    inFl := by
      show sp.inFlight = _
      rw [h.inFl, countEliciting_eq, countEliciting_eq]
      have h1 : ∀ l : List Pkt, total (fun p => if p.eliciting then 1 else 0) l = total (fun p => if p.eliciting then 1 else 0) (l.map Pkt.strip) := by
        intro l; rw [total_map]; rfl
      rw [h1, ← e, ← h1]
    base := h.base
    la := fun n hl => by
      obtain ⟨a, u, b, c, d⟩ := h.la n hl
      refine ⟨a, u, b, c, fun p hp => ?_⟩
      obtain ⟨q, hq, e⟩ := hmem p hp
      rw [← (hfield e).1, ← (hfield e).2.1]; exact d q hq
    laNone := h.laNone
    lostLa := fun p hp => by
      obtain ⟨q, hq, e⟩ := hmem p hp
      rw [← (hfield e).1, ← (hfield e).2.2.1]; exact h.lostLa q hq }

/-- A space after its packets were taken away. -/
theorem SpOK.ignored {clock next id sp} (h : SpOK clock next id sp) : SpOK clock next id sp.ignored := by
  have := h.filter (fun _ => false)
  have e : sp.pkts.filter (fun _ => false) = [] := by rw [List.filter_eq_nil_iff]; intro p _; simp
  rw [e] at this
  exact this

theorem SpOK.migrate {clock next id sp} (h : SpOK clock next id sp) : SpOK clock next id sp.migrate := by
  refine h.same ?_
  rw [List.map_map]
  rfl

/-- Sending a packet. -/
theorem SpOK.onSent {clock next id sp p} (h : SpOK clock next id sp) (hid : p.pt.space = id) (hc : clock ≤ p.sent) (hn : next ≤ p.pn)
    (hl : p.lost = none) :
    ∃ sp', sp.onSent p = .ok sp' ∧ SpOK p.sent (p.pn + 1) id sp' ∧ sp'.pkts = sp.pkts ++ [p] ∧ sp'.largestAcked = sp.largestAcked ∧
      sp'.largestAckedSent = sp.largestAckedSent := by
  have htr : track sp.pkts p = .ok (sp.pkts ++ [p]) := by
    unfold track
    cases hg : sp.pkts.getLast? with
    | none => rfl
    | some l =>
      have := h.pn l (List.mem_of_getLast? hg)
      simp only
      rw [if_pos (by omega)]
  unfold Space.onSent
  rw [htr]
  refine ⟨_, rfl, ?_, rfl, rfl, rfl⟩
  have hm := h.mono (clock' := p.sent) (next' := p.pn + 1) hc (by omega)
  have hmem : ∀ {P : Pkt → Prop}, (∀ q ∈ sp.pkts, P q) → P p → ∀ q ∈ sp.pkts ++ [p], P q := by
    intro P h1 h2 q hq
    rcases List.mem_append.mp hq with hq | hq
    · exact h1 q hq
    · rw [List.mem_singleton] at hq; exact hq ▸ h2
  have hpw : ∀ {R : Pkt → Pkt → Prop}, sp.pkts.Pairwise R → (∀ q ∈ sp.pkts, R q p) → (sp.pkts ++ [p]).Pairwise R := by
    intro R h1 h2
    rw [List.pairwise_append]
    refine ⟨h1, List.pairwise_singleton _ _, ?_⟩
    intro a ha b hb
    rw [List.mem_singleton] at hb
    exact hb ▸ h2 a ha
  exact {
    sid := h.sid
    sorted := hpw h.sorted (fun q hq => Nat.lt_of_lt_of_le (h.pn q hq) hn)
    timed := hpw h.timed (fun q hq => Nat.le_trans (h.sent q hq) hc)
    lostFirst := hpw h.lostFirst (fun q _ t ht => by rw [hl] at ht; cases ht)
    pn := hmem hm.pn (Nat.lt_succ_self _)
    sent := hmem hm.sent (Nat.le_refl _)
    lostT := hmem hm.lostT (fun t ht => by rw [hl] at ht; cases ht)
    pt := hmem hm.pt hid
    inFl := by
      show (if p.eliciting = true then sp.inFlight + 1 else sp.inFlight) = _
      rw [h.inFl, countEliciting_eq, countEliciting_eq, total_append, total_cons, total_nil]
      split <;> omega
    base := by
      show 0 < (if p.eliciting = true then sp.inFlight + 1 else sp.inFlight) → (if _ then _ else _) ≠ none
      intro hp
      split
      · simp
      · rename_i hne
        apply h.base
        rw [if_neg (fun hc => hne (.inl hc))] at hp
        exact hp
    la := fun n hln => by
      obtain ⟨a, u, b, c, d⟩ := hm.la n hln
      exact ⟨a, u, b, c, hmem d (fun _ => c)⟩
    laNone := h.laNone
    lostLa := hmem hm.lostLa (fun hc => absurd hl hc) }

/-- What loss detection leaves of the tracked packets. -/
def detectedPkts (sp : Space) (now ld cd : Nat) : List Pkt :=
  (sp.pkts.filter fun p => !p.expired now cd).map (markLost (sp.largestAcked.getD 0) now ld)

/-- What loss detection returns. -/
def detectedLost (sp : Space) (now ld cd : Nat) : List Pkt :=
  ((sp.pkts.filter fun p => !p.expired now cd).filter (newlyLost (sp.largestAcked.getD 0) now ld)).map (markLost (sp.largestAcked.getD 0) now ld)

theorem markLost_lost {la now ld p t} (h : (markLost la now ld p).lost = some t) : p.lost = some t ∨ (t = now ∧ LossDue la now ld p ∧ p.lost = none) := by
  unfold markLost at h
  split at h
  · rename_i hc
    injection h with h
    exact .inr ⟨h.symm, hc.1, hc.2⟩
  · exact .inl h

theorem SpOK.detectLost {clock next id sp now ld cd} (h : SpOK clock next id sp) (hc : clock ≤ now) :
    ∃ sp', sp.detectLost now ld cd = .ok (sp', detectedLost sp now ld cd) ∧ SpOK now next id sp' ∧ sp'.pkts = detectedPkts sp now ld cd ∧
      sp'.largestAcked = sp.largestAcked ∧ sp'.largestAckedSent = sp.largestAckedSent ∧ sp'.lastEliciting = sp.lastEliciting := by
  have hf := (h.mono hc (Nat.le_refl _)).filter (fun p => !p.expired now cd)
  have hcnt : countEliciting sp.pkts = countEliciting (sp.pkts.filter (·.expired now cd)) + countEliciting (sp.pkts.filter fun p => !p.expired now cd) := by
    simp only [countEliciting_eq]; exact total_split _ _ _
  unfold Space.detectLost
  rw [removeExpired_ok h.lostFirst]
  simp only
  unfold Space.removeOutstanding
  rw [if_pos (by rw [h.inFl]; omega)]
  simp only
  have hin : sp.inFlight - countEliciting (sp.pkts.filter (·.expired now cd)) = countEliciting (sp.pkts.filter fun p => !p.expired now cd) := by
    rw [h.inFl]; omega
  cases hla : sp.largestAcked with
  | none =>
    have hid : ∀ p, markLost 0 now ld p = p := fun p => markLost_of_not (fun hc => by have := hc.1; omega)
    have e1 : detectedPkts sp now ld cd = sp.pkts.filter fun p => !p.expired now cd := by
      unfold detectedPkts
      rw [hla]
      show List.map (markLost 0 now ld) _ = _
      rw [show markLost 0 now ld = _root_.id from funext hid, List.map_id]
    have e2 : detectedLost sp now ld cd = [] := by
      unfold detectedLost
      rw [hla]
      show List.map (markLost 0 now ld) (List.filter (newlyLost 0 now ld) _) = _
      rw [List.map_eq_nil_iff, List.filter_eq_nil_iff]
      intro p _ hc
      unfold newlyLost LossDue at hc
      simp at hc
    simp only
    rw [e1, e2]
    refine ⟨_, rfl, ?_, rfl, rfl, rfl, rfl⟩
    rw [hin]
    exact { hf with la := fun n hn => (by rw [← hla] at hn; exact hf.la n hn), laNone := fun _ => hf.laNone hla,
                    lostLa := fun p hp hl => by have := hf.lostLa p hp hl; rwa [← hla] }
  | some n =>
    simp only
    obtain ⟨d1, d2⟩ := declareLost_ok (la := n) (now := now) (delay := ld) hf.sorted hf.timed
    simp only at d1 d2
    rw [d1, d2]
    have e1 : detectedPkts sp now ld cd = (sp.pkts.filter fun p => !p.expired now cd).map (markLost n now ld) := by
      unfold detectedPkts; rw [hla]; rfl
    have e2 : detectedLost sp now ld cd = ((sp.pkts.filter fun p => !p.expired now cd).filter (newlyLost n now ld)).map (markLost n now ld) := by
      unfold detectedLost; rw [hla]; rfl
    rw [e1, e2]
    refine ⟨_, rfl, ?_, rfl, rfl, rfl, rfl⟩
    rw [hin]
    generalize hps : (sp.pkts.filter fun p => !p.expired now cd) = ps at hf ⊢
    have hmem : ∀ q ∈ ps.map (markLost n now ld), ∃ p ∈ ps, markLost n now ld p = q := fun q hq => List.mem_map.mp hq
    exact {
      sid := hf.sid
      sorted := by
        show Sorted (ps.map _)
        unfold Sorted
        rw [List.pairwise_map]
        simp only [markLost_pn]
        exact hf.sorted
      timed := by
        show Timed (ps.map _)
        unfold Timed
        rw [List.pairwise_map]
        simp only [markLost_sent]
        exact hf.timed
      lostFirst := by
        show LostFirst (ps.map _)
        unfold LostFirst
        rw [List.pairwise_map]
        have hall := List.Pairwise.and hf.sorted (List.Pairwise.and hf.timed hf.lostFirst)
        refine List.Pairwise.imp_of_mem ?_ hall
        rintro a b ha hb ⟨hpn, hst, hlf⟩ t ht
        rcases markLost_lost ht with ht | ⟨rfl, hd, _⟩
        · obtain ⟨u, hu, hut⟩ := hlf t ht
          refine ⟨u, ?_, hut⟩
          unfold markLost
          rw [if_neg]
          · exact hu
          · rintro ⟨_, hn⟩; rw [hu] at hn; cases hn
        · have hda : LossDue n t ld a := by unfold LossDue at *; omega
          cases hla' : a.lost with
          | none =>
            refine ⟨t, ?_, Nat.le_refl _⟩
            unfold markLost
            rw [if_pos ⟨hda, hla'⟩]
          | some u =>
            refine ⟨u, ?_, hf.lostT a ha u hla'⟩
            unfold markLost
            rw [if_neg]
            · exact hla'
            · rintro ⟨_, hn⟩; rw [hla'] at hn; cases hn
      pn := fun q hq => by obtain ⟨p, hp, rfl⟩ := hmem q hq; rw [markLost_pn]; exact hf.pn p hp
      sent := fun q hq => by obtain ⟨p, hp, rfl⟩ := hmem q hq; rw [markLost_sent]; exact hf.sent p hp
      lostT := fun q hq t ht => by
        obtain ⟨p, hp, rfl⟩ := hmem q hq
        rcases markLost_lost ht with ht | ⟨rfl, _, _⟩
        · exact hf.lostT p hp t ht
        · exact Nat.le_refl _
      pt := fun q hq => by obtain ⟨p, hp, rfl⟩ := hmem q hq; rw [markLost_pt]; exact hf.pt p hp
      inFl := by
        show countEliciting ps = countEliciting (ps.map _)
        rw [countEliciting_eq, countEliciting_eq, total_map]
        simp only [markLost_eliciting]
      base := hf.base
      la := fun m hm => by
        obtain ⟨a, u, b, c, d⟩ := hf.la m (by rw [← hm]; exact hla)
        refine ⟨a, u, b, c, fun q hq => ?_⟩
        obtain ⟨p, hp, rfl⟩ := hmem q hq
        rw [markLost_pn, markLost_sent]
        exact d p hp
      laNone := fun hn => by cases hn
      lostLa := fun q hq hl => by
        obtain ⟨p, hp, rfl⟩ := hmem q hq
        rw [markLost_pn]
        refine ⟨n, rfl, ?_⟩
        cases ht : (markLost n now ld p).lost with
        | none => exact absurd ht hl
        | some t =>
          rcases markLost_lost ht with ht | ⟨_, hd, _⟩
          · obtain ⟨n', hn', hlt⟩ := hf.lostLa p hp (by rw [ht]; simp)
            have : some n = some n' := hla.symm.trans hn'
            injection this with this
            omega
          · exact hd.1 }

end Neqo.Rec
