import Verif.Recovery.AckStep

/-! # What a timeout does, in detail -/
namespace Neqo.Rec

variable {m clock : Nat} {next : SpaceId → Nat} {clean : Bool} {x : Nat} {s : Sys}

theorem ptoScan_due {s : Sys} {now : Nat} : ∀ {ids allow due : List SpaceId}, s.ptoScan now ids = .ok (allow, due) →
    ∀ i, i ∈ due ↔ i ∈ ids ∧ ∃ t, s.ptoTime i = .ok (some t) ∧ t ≤ now := by
  intro ids
  induction ids with
  | nil =>
    intro allow due h i
    unfold Sys.ptoScan at h
    injection h with h
    injection h with _ h
    rw [← h]
    simp
  | cons j ids ih =>
    intro allow due h i
    unfold Sys.ptoScan at h
    cases ht : s.ptoTime j with
    | error e => rw [ht] at h; cases h
    | ok t =>
      rw [ht] at h
      simp only at h
      cases hr : s.ptoScan now ids with
      | error e => rw [hr] at h; cases h
      | ok r =>
        obtain ⟨a, d⟩ := r
        rw [hr] at h
        simp only at h
        have hi := ih hr i
        cases t with
        | none =>
          simp only at h
          injection h with h
          injection h with _ h
          rw [← h, hi]
          constructor
          · rintro ⟨h1, h2⟩; exact ⟨List.mem_cons_of_mem _ h1, h2⟩
          · rintro ⟨h1, t, h2, h3⟩
            rcases List.mem_cons.mp h1 with rfl | h1
            · rw [ht] at h2; cases h2
            · exact ⟨h1, t, h2, h3⟩
        | some t =>
          simp only at h
          injection h with h
          injection h with _ h
          rw [← h]
          split
          · rename_i hgt
            rw [hi]
            constructor
            · rintro ⟨h1, h2⟩; exact ⟨List.mem_cons_of_mem _ h1, h2⟩
            · rintro ⟨h1, t', h2, h3⟩
              rcases List.mem_cons.mp h1 with rfl | h1
              · rw [ht] at h2; injection h2 with h2; injection h2 with h2; omega
              · exact ⟨h1, t', h2, h3⟩
          · rename_i hgt
            rw [List.mem_cons, hi]
            constructor
            · rintro (rfl | ⟨h1, h2⟩)
              · exact ⟨List.mem_cons_self, t, ht, by omega⟩
              · exact ⟨List.mem_cons_of_mem _ h1, h2⟩
            · rintro ⟨h1, t', h2, h3⟩
              rcases List.mem_cons.mp h1 with rfl | h1
              · exact .inl rfl
              · exact .inr ⟨h1, t', h2, h3⟩

/-- The timer of a space has run out. -/
def DuePto (s : Sys) (now : Nat) (id : SpaceId) : Prop := ∃ t, s.ptoTime id = .ok (some t) ∧ t ≤ now

/-- What checking the probe timer does. -/
structure FOut (now : Nat) (s : Sys) (probes : List Pkt) (s' : Sys) : Prop where
  rtt : s'.rtt = s.rtt
  mtu : s'.cc.mtu = s.cc.mtu
  conf : s'.confirmed = s.confirmed
  fast : s'.fastPto = s.fastPto
  la : ∀ id, (s'.spaces id).map (·.largestAcked) = (s.spaces id).map (·.largestAcked)
  /-- Only a handshake space without a base time is given one. -/
  times : ∀ id, (s'.spaces id).map (·.lastEliciting) = (s.spaces id).map (·.lastEliciting) ∨
    (id = .handshake ∧ (s.spaces id).map (·.lastEliciting) = some none)
  cases : (probes = [] ∧ s'.spaces = s.spaces ∧ s'.pto = s.pto ∧ ∀ id, ¬ DuePto s now id) ∨
    (∃ due pt sc, Collected (maxPtoPackets * s.cc.mtu) 0 (retransmitSet due) s probes sc ∧ s'.pkts = sc.pkts ∧ due ≠ [] ∧ (∀ i, i ∈ due ↔ DuePto s now i) ∧
      s'.pto = some pt ∧ pt.count = s.ptoCount + 1 ∧ pt.packets = maxPtoPackets)

theorem mem_allSpaces (i : SpaceId) : i ∈ allSpaces := by cases i <;> decide

theorem retransmitSet_nodup (due : List SpaceId) : (retransmitSet due).Nodup := by
  unfold retransmitSet
  exact List.Pairwise.filter _ (by decide : allSpaces.Nodup)

theorem mem_retransmitSet {due : List SpaceId} {i : SpaceId} : i ∈ retransmitSet due ↔ i ∈ due ∨ (i = .initial ∧ .handshake ∈ due) := by
  unfold retransmitSet
  rw [List.mem_filter]
  simp only [mem_allSpaces, true_and, Bool.or_eq_true, Bool.and_eq_true, decide_eq_true_eq, List.contains_iff_mem]

theorem map_bare {α : Type} (f : Space → α) (hf : ∀ sp, f sp.bare = f sp) {a b : Option Space} (h : a.map Space.bare = b.map Space.bare) : a.map f = b.map f := by
  cases a <;> cases b <;> simp at h ⊢
  rw [← hf, h, hf]

theorem Core.maybeFirePto_out (h : Core m clock next clean 0 s) (now : Nat) (hsKeys : Bool) {s' : Sys} {probes : List Pkt}
    (he : s.maybeFirePto now hsKeys = .ok (s', probes)) : FOut now s probes s' := by
  obtain ⟨allow, due, h1, h2⟩ := h.ptoScan now allSpaces
  have hdue := ptoScan_due h1
  unfold Sys.maybeFirePto at he
  rw [h1] at he
  simp only at he
  cases due with
  | nil =>
    simp only at he
    injection he with he
    injection he with e1 e2
    subst e1
    refine ⟨rfl, rfl, rfl, rfl, fun _ => rfl, fun _ => .inl rfl, .inl ⟨e2.symm, rfl, rfl, ?_⟩⟩
    intro id hd
    have := (hdue id).mpr ⟨mem_allSpaces id, hd⟩
    cases this
  | cons id rest =>
    simp only at he
    have hc := h.collected (maxPtoPackets * s.cc.mtu) (retransmitSet (id :: rest)) 0 (retransmitSet_nodup _)
    generalize s.ptoCollect (maxPtoPackets * s.cc.mtu) 0 (retransmitSet (id :: rest)) = r at *
    have hpto : r.1.pto = s.pto := by rw [hc.same]
    have hfire : ∃ pt, r.1.firePto id allow = .ok { r.1 with pto := some pt } ∧ pt.count = s.ptoCount + 1 ∧ pt.packets = maxPtoPackets := by
      unfold Sys.firePto Sys.ptoCount
      rw [if_pos (by rw [List.contains_iff_mem]; exact h2 id List.mem_cons_self), hpto]
      cases s.pto with
      | none => exact ⟨_, rfl, rfl, rfl⟩
      | some p => exact ⟨_, rfl, rfl, rfl⟩
    obtain ⟨pt, f1, f2, f3⟩ := hfire
    rw [f1] at he
    simp only at he
    injection he with he
    injection he with e1 e2
    subst e2
    have hla : ∀ i, (r.1.spaces i).map (·.largestAcked) = (s.spaces i).map (·.largestAcked) := fun i => map_bare _ (fun _ => rfl) (hc.bare i)
    have hle : ∀ i, (r.1.spaces i).map (·.lastEliciting) = (s.spaces i).map (·.lastEliciting) := fun i => map_bare _ (fun _ => rfl) (hc.bare i)
    have hcases : ∀ s'' : Sys, s''.pkts = r.1.pkts → s''.pto = some pt →
        (r.2 = [] ∧ s''.spaces = s.spaces ∧ s''.pto = s.pto ∧ ∀ id, ¬ DuePto s now id) ∨
        (∃ due pt sc, Collected (maxPtoPackets * s.cc.mtu) 0 (retransmitSet due) s r.2 sc ∧ s''.pkts = sc.pkts ∧ due ≠ [] ∧ (∀ i, i ∈ due ↔ DuePto s now i) ∧
          s''.pto = some pt ∧ pt.count = s.ptoCount + 1 ∧ pt.packets = maxPtoPackets) := by
      intro s'' h1 h2
      refine .inr ⟨id :: rest, pt, r.1, hc, h1, List.cons_ne_nil _ _, fun i => ?_, h2, f2, f3⟩
      rw [hdue i]
      exact ⟨fun h => h.2, fun h => ⟨mem_allSpaces i, h⟩⟩
    have hr : r.1.rtt = s.rtt ∧ r.1.cc = s.cc ∧ r.1.confirmed = s.confirmed ∧ r.1.fastPto = s.fastPto := by
      rw [hc.same]; exact ⟨rfl, rfl, rfl, rfl⟩
    rw [← e1]
    split
    · unfold Sys.prime
      split
      · rename_i p i0 hh q1 q2 q3
        split
        · rename_i hcond
          refine ⟨hr.1, by show r.1.cc.mtu = _; rw [hr.2.1], hr.2.2.1, hr.2.2.2, ?_, ?_, hcases _ ?_ rfl⟩
          · intro i
            rw [← hla i]
            show (if i = SpaceId.handshake then some _ else r.1.spaces i).map _ = _
            split
            · rename_i hi
              have q3' : r.1.spaces .handshake = some hh := q3
              rw [hi, q3']; rfl
            · rfl
          · intro i
            by_cases hi : i = .handshake
            · refine .inr ⟨hi, ?_⟩
              rw [← hle i, hi]
              have q3' : r.1.spaces .handshake = some hh := q3
              rw [q3']
              simp [hcond.2.2.2.1]
            · refine .inl ?_
              rw [← hle i]
              show (if i = SpaceId.handshake then some _ else r.1.spaces i).map _ = _
              rw [if_neg hi]
          · funext j
            rw [setSpace_pkts]
            split
            · rename_i hj
              rw [hj]
              exact (pkts_some (s := { r.1 with pto := some pt }) q3).symm
            · rfl
        · exact ⟨hr.1, by show r.1.cc.mtu = _; rw [hr.2.1], hr.2.2.1, hr.2.2.2, hla, fun i => .inl (hle i), hcases _ rfl rfl⟩
      · exact ⟨hr.1, by show r.1.cc.mtu = _; rw [hr.2.1], hr.2.2.1, hr.2.2.2, hla, fun i => .inl (hle i), hcases _ rfl rfl⟩
    · exact ⟨hr.1, by show r.1.cc.mtu = _; rw [hr.2.1], hr.2.2.1, hr.2.2.2, hla, fun i => .inl (hle i), hcases _ rfl rfl⟩

/-- What a timeout does: losses are found, then the probe timer is checked. -/
theorem Core.onTimeout_out (h : Core m clock next clean 0 s) (hst : StatsOK s) {now : Nat} (hc : clock ≤ now) {hsKeys : Bool} {s' : Sys} {lost probes : List Pkt}
    (he : s.onTimeout now hsKeys = .ok (s', lost, probes)) :
    ∃ s₁, Core m now next clean 0 s₁ ∧ Moves next s [] lost [] s₁ ∧ TOut now allSpaces s lost s₁ ∧ FOut now s₁ probes s' ∧ Moves next s₁ [] [] probes s' := by
  obtain ⟨s₁, lost', a1, a2, a3, ⟨a4, a5⟩, a6⟩ := h.timeoutSpaces allSpaces hc (by decide)
  unfold Sys.onTimeout at he
  rw [a1] at he
  simp only at he
  have hc1 : Core m now next clean 0 { s₁ with stats := s₁.stats.countLost lost' } :=
    ⟨a2.sp, a2.cc, a2.ccs, a2.maybe, a2.maybes, a2.rtt, a2.rtts, a2.conf, a2.hs, a2.app, a2.pto, a2.exact, a2.epoch, a2.epochLe⟩
  have hs1 : StatsOK { s₁ with stats := s₁.stats.countLost lost' } := by
    have := hst.lost
    have := hst.bytes
    constructor
    · show tot lostNum s₁ ≤ s₁.stats.lost + lost'.length
      rw [a6.stats]; omega
    · show tot lostBytes s₁ ≤ s₁.stats.bytesLost + (lost'.map (·.len)).sum
      rw [a6.stats]; omega
  obtain ⟨s₂, probes', b1, b2, b3, b4⟩ := hc1.maybeFirePto hs1 now hsKeys
  have bo := hc1.maybeFirePto_out now hsKeys b1
  rw [b1] at he
  simp only at he
  injection he with he
  injection he with e1 he
  injection he with e2 e3
  subst e1 e2 e3
  refine ⟨s₁, a2, a3, a6, ?_, ⟨b4.evol, b4.acked, b4.ackedNodup, b4.lost, b4.lostNodup, b4.probes, b4.probesNodup⟩⟩
  refine ⟨bo.rtt, bo.mtu, bo.conf, bo.fast, bo.la, bo.times, ?_⟩
  rcases bo.cases with ⟨c1, c2, c3, c4⟩ | ⟨due, pt, sc, c1, c2, c3, c4, c5, c6, c7⟩
  · exact .inl ⟨c1, c2, c3, c4⟩
  · refine .inr ⟨due, pt, { sc with stats := s₁.stats }, ⟨c1.bare, c1.back, c1.fwd, c1.other, c1.only, c1.all, c1.one, ?_⟩, c2, c3, c4, c5, c6, c7⟩
    rw [c1.same]

end Neqo.Rec
