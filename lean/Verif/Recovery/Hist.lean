import Verif.Recovery.Frame

/-! # The invariant of histories -/
namespace Neqo.Rec

variable {m : Nat} {h h' : Hist} {e : Ev} {o : Out} {s' : Sys}

/-- What one call does, as far as the invariant is concerned. -/
structure StepFacts (m : Nat) (h : Hist) (e : Ev) (s' : Sys) (o : Out) : Prop where
  core : Core m (e.now h.clock) (e.next h.next) (h.clean && !e.silent) 0 s'
  stats : StatsOK s'
  moves : Moves h.next h.s o.acked o.lost o.probes s'
  fresh : ∀ id, ∀ q ∈ s'.pkts id, h.next id ≤ q.pn → ∃ p ∈ e.pkt, SamePkt p q
  la : ∀ id sp', s'.spaces id = some sp' → ∃ sp, h.s.spaces id = some sp ∧
    ((sp'.largestAcked = sp.largestAcked ∧ ∀ a ∈ o.acked, a.pt.space ≠ id) ∨
     (∃ top ∈ o.acked, top.pt.space = id ∧ (∀ a ∈ o.acked, a.pn ≤ top.pn) ∧
       sp'.largestAcked = if sp.largestAcked.all (fun l => decide (top.pn > l)) then some top.pn else sp.largestAcked))
  le : ∀ id sp', s'.spaces id = some sp' → ∃ sp, h.s.spaces id = some sp ∧
    ((∃ p, e.pkt = [p] ∧ p.pt.space = id ∧ sp'.lastEliciting = if p.eliciting ∨ (id ≠ .app ∧ sp.lastEliciting = none) then some p.sent else sp.lastEliciting) ∨
     ((∀ p ∈ e.pkt, p.pt.space ≠ id) ∧ (sp'.lastEliciting = sp.lastEliciting ∨ (id = .handshake ∧ sp.lastEliciting = none))))

/-- What holds of every history. -/
structure Inv (m : Nat) (h : Hist) : Prop where
  big : ackOnlyLimit < m
  core : Core m h.clock h.next h.clean 0 h.s
  stats : StatsOK h.s
  acked : ∀ k ∈ h.acked, ∀ q ∈ h.s.pkts k.1, q.pn ≠ k.2
  ackedNodup : h.acked.Nodup
  ackedSent : ∀ k ∈ h.acked, ∃ p ∈ h.sent, p.key = k
  lost : ∀ k ∈ h.lost, ∀ q ∈ h.s.pkts k.1, q.pn = k.2 → q.lost ≠ none
  lostNodup : h.lost.Nodup
  lostSent : ∀ k ∈ h.lost, ∃ p ∈ h.sent, p.key = k
  probed : ∀ k ∈ h.probed, ∀ q ∈ h.s.pkts k.1, q.pn = k.2 → q.pto = true
  probedNodup : h.probed.Nodup
  probedSent : ∀ k ∈ h.probed, ∃ p ∈ h.sent, p.key = k
  sentNext : ∀ p ∈ h.sent, p.pn < h.next p.pt.space
  sentNodup : (h.sent.map Pkt.key).Nodup
  sentTime : ∀ p ∈ h.sent, p.sent ≤ h.clock
  tracked : ∀ id, ∀ q ∈ h.s.pkts id, ∃ p ∈ h.sent, SamePkt p q
  la : ∀ id sp, h.s.spaces id = some sp → (∀ n, sp.largestAcked = some n → (id, n) ∈ h.acked) ∧
    ∀ k, (id, k) ∈ h.acked → ∃ n, sp.largestAcked = some n ∧ k ≤ n
  le : ∀ id sp, h.s.spaces id = some sp → (∀ t, lastElicited h.sent id = some t → sp.lastEliciting = some t) ∧
    (id = .app → sp.lastEliciting = lastElicited h.sent id) ∧ (id ≠ .app → sp.lastEliciting = none → ∀ p ∈ h.sent, p.pt.space ≠ id)

theorem Inv.new (hm : 256 < m) {fastPto initialRtt mtu : Nat} {alg : Alg} {spurious : Bool} (hmtu : m ≤ mtu) :
    Inv m (.new fastPto initialRtt mtu alg spurious) := by
  have hp : ∀ id, (Sys.new fastPto initialRtt mtu alg spurious).pkts id = [] := fun id => rfl
  refine ⟨hm, ⟨?_, CcOK.new (by omega) hmtu, (fun _ h => by cases h), (fun _ h => by cases h), (fun _ h => by cases h), ⟨fun _ => rfl, (fun h => by cases h)⟩,
    (fun _ h => by cases h), ?_, (fun h => by cases h), (fun h => by cases h), (fun _ h => by cases h), fun _ => rfl, (fun _ _ _ h => by cases h), (fun _ _ h => by cases h)⟩,
    ⟨Nat.le_refl _, Nat.le_refl _⟩, (fun _ h => by cases h), .nil, (fun _ h => by cases h), (fun _ h => by cases h), .nil, (fun _ h => by cases h),
    (fun _ h => by cases h), .nil, (fun _ h => by cases h), (fun _ h => by cases h), .nil, (fun _ h => by cases h), (fun _ _ h => by cases h), ?_, ?_⟩
  · intro id x hx
    have : x = { id := id } := by injection hx with hx; exact hx.symm
    rw [this]
    exact .new id
  · exact ⟨fun h => absurd rfl h, (fun h => by cases h)⟩
  · intro id x hx
    have : x = { id := id } := by injection hx with hx; exact hx.symm
    rw [this]
    exact ⟨(fun n hn => by cases hn), (fun k hk => by cases hk)⟩
  · intro id x hx
    have : x = { id := id } := by injection hx with hx; exact hx.symm
    rw [this]
    exact ⟨(fun n hn => by cases hn), (fun _ => rfl), (fun _ _ _ hp => by cases hp)⟩

theorem StepFacts.quiet (hc : Core m (e.now h.clock) h.next (h.clean && !e.silent) 0 s') (hst : StatsOK s') (hm : Moves h.next h.s [] [] [] s')
    (hf : Frame h.s s') (hn : e.next h.next = h.next) (hp : e.pkt = []) (ha : o.acked = []) (hl : o.lost = []) (hpr : o.probes = []) : StepFacts m h e s' o where
  core := by rw [hn]; exact hc
  stats := hst
  moves := by rw [ha, hl, hpr]; exact hm
  fresh := fun id q hq hle => absurd (hc.below id q hq) (by omega)
  la := fun id sp' hs => by
    obtain ⟨sp, h1, h2, h3⟩ := hf id sp' hs
    exact ⟨sp, h1, .inl ⟨h2, by rw [ha]; exact fun _ h => by cases h⟩⟩
  le := fun id sp' hs => by
    obtain ⟨sp, h1, h2, h3⟩ := hf id sp' hs
    exact ⟨sp, h1, .inr ⟨by rw [hp]; exact (fun _ h => by cases h), .inl h3⟩⟩

theorem map_eq_ok {α β : Type} {f : α → β} {a : Except Err α} {b : β} (h : a.map f = .ok b) : ∃ x, a = .ok x ∧ f x = b := by
  cases a with
  | error e => cases h
  | ok x => injection h with h; exact ⟨x, rfl, h⟩

theorem ackedPkts_top {ps : List Pkt} (hs : Sorted ps) {rs : List (Nat × Nat)} {top : Pkt} {rest : List Pkt} (h : ackedPkts ps rs = top :: rest) :
    ∀ a ∈ ackedPkts ps rs, a.pn ≤ top.pn := by
  have hp : (ackedPkts ps rs).Pairwise (fun a b => b.pn < a.pn) := by
    unfold ackedPkts
    rw [List.pairwise_reverse]
    exact List.Pairwise.filter _ hs
  rw [h] at hp ⊢
  intro a ha
  rcases List.mem_cons.mp ha with rfl | ha
  · exact Nat.le_refl _
  · exact Nat.le_of_lt ((List.pairwise_cons.mp hp).1 a ha)

theorem Inv.facts (hi : Inv m h) (hl : Legal m h e) (hs : h.s.step e = .ok (s', o)) : StepFacts m h e s' o := by
  have hb : ∀ b : Bool, (b && !false) = b := by decide
  cases e with
  | send p on =>
    obtain ⟨s₁, h1, h2, h3, h4⟩ := hi.core.onSent hi.stats (on := on) hl.1 hl.2
    obtain ⟨r, hr, e1⟩ := map_eq_ok hs
    rw [h1] at hr
    injection hr with hr
    subst hr
    injection e1 with e1 e2
    subst e1 e2
    have hf := onSent_frame h1
    refine ⟨by rw [show Ev.silent (.send p on) = false from rfl, hb]; exact h2, h3, h4, ?_, ?_, ?_⟩
    · intro id q hq hle
      cases hsp : s₁.spaces id with
      | none => rw [pkts_none hsp] at hq; cases hq
      | some sp' =>
        rw [pkts_some hsp] at hq
        obtain ⟨sp, f1, f2, f3⟩ := hf id sp' hsp
        have old : ∀ q ∈ sp.pkts, q.pn < h.next id := (hi.core.sp id sp f1).pn
        split at f3
        · rw [f3.1] at hq
          rcases List.mem_append.mp hq with hq | hq
          · have := old q hq; omega
          · rw [List.mem_singleton] at hq
            rw [hq]
            exact ⟨p, List.mem_singleton.mpr rfl, ⟨rfl, rfl, rfl, rfl, rfl, rfl⟩⟩
        · rw [f3] at hq
          have := old q hq; omega
    · intro id sp' hsp
      obtain ⟨sp, f1, f2, f3⟩ := hf id sp' hsp
      exact ⟨sp, f1, .inl ⟨f2, (fun _ h => by cases h)⟩⟩
    · intro id sp' hsp
      obtain ⟨sp, f1, f2, f3⟩ := hf id sp' hsp
      refine ⟨sp, f1, ?_⟩
      have hid : sp.id = id := (hi.core.sp id sp f1).sid
      split at f3
      · rename_i hpid
        refine .inl ⟨p, rfl, hpid.symm, ?_⟩
        rw [← hid]
        exact f3.2
      · rename_i hpid
        refine .inr ⟨?_, .inl (by rw [f3])⟩
        intro q hq
        have hq : q ∈ [p] := hq
        rw [List.mem_singleton] at hq
        rw [hq]
        exact fun hc => hpid hc.symm
  | ack id rs i now =>
    obtain ⟨s₁, lost, h1, h2, h3, h4, h5, h6⟩ := hi.core.onAck hi.stats (id := id) (i := i) hl.1 hl.2.1 hl.2.2
    obtain ⟨r, hr, e1⟩ := map_eq_ok hs
    rw [h1] at hr
    injection hr with hr
    subst hr
    injection e1 with e1 e2
    subst e1 e2
    have ht := onAck_times h1
    refine ⟨by rw [show Ev.silent (.ack id rs i now) = false from rfl, hb]; exact h2, h3, h4, ?_, ?_, ?_⟩
    · intro j q hq hle
      exact absurd (h2.below j q hq) (by omega)
    · intro j sp' hsp
      obtain ⟨sp, t1, t2⟩ := ht j sp' hsp
      refine ⟨sp, t1, ?_⟩
      have hspace : ∀ a ∈ ackedPkts (h.s.pkts id) rs, a.pt.space = id := by
        intro a ha
        unfold ackedPkts at ha
        rw [List.mem_reverse] at ha
        have ha := (List.mem_filter.mp ha).1
        cases hs : h.s.spaces id with
        | none => rw [pkts_none hs] at ha; cases ha
        | some x => rw [pkts_some hs] at ha; exact (hi.core.sp id x hs).pt a ha
      cases hack : ackedPkts (h.s.pkts id) rs with
      | nil =>
        refine .inl ⟨?_, (fun _ h => by cases h)⟩
        -- nothing was acknowledged
        have : s₁.spaces j = h.s.spaces j ∨ ∃ x, h.s.spaces id = some x ∧ j = id ∧ s₁.spaces j = some { x with pkts := keptPkts x.pkts rs, inFlight := x.inFlight - 0 } := by
          unfold Sys.onAck at h1
          cases hs : h.s.spaces id with
          | none =>
            rw [hs] at h1
            injection h1 with h1
            injection h1 with h1 _
            exact .inl (by rw [h1])
          | some x =>
            rw [hs] at h1
            simp only at h1
            rw [pkts_some hs] at hack h1
            rw [takeRanges_ok (hi.core.sp id x hs).sorted hl.2.1] at h1
            simp only at h1
            change (match Space.removeOutstanding { x with pkts := keptPkts x.pkts rs } (countEliciting (ackedPkts x.pkts rs)) with
              | .error e => .error e
              | .ok sp =>
                match h.s.stats.ackedAll (ackedPkts x.pkts rs) with
                | .error e => .error e
                | .ok st =>
                  match ackedPkts x.pkts rs with
                  | [] => .ok ({ h.s with stats := st }.setSpace id (some sp), [], [])
                  | top :: rest => { h.s with stats := st }.ackFound id sp top (top :: rest) i now : Except Err (Sys × List Pkt × List Pkt)) = _ at h1
            rw [hack] at h1
            unfold Space.removeOutstanding at h1
            rw [if_pos (show _ ≥ countEliciting [] from Nat.zero_le _)] at h1
            simp only [LStats.ackedAll] at h1
            injection h1 with h1
            injection h1 with h1 _
            rw [← h1]
            unfold Sys.setSpace
            simp only
            by_cases hj : j = id
            · rw [if_pos hj]
              exact .inr ⟨x, rfl, hj, rfl⟩
            · rw [if_neg hj]
              exact .inl rfl
        rcases this with h | ⟨x, hx1, hx2, hx3⟩
        · rw [h, t1] at hsp
          injection hsp with hsp
          rw [hsp]
        · rw [hx3] at hsp
          rw [hx2, hx1] at t1
          injection hsp with hsp
          injection t1 with t1
          rw [← hsp, ← t1]
      | cons top rest =>
        by_cases hj : j = id
        · subst hj
          have hpk := pkts_some t1
          rw [hpk] at hack hspace
          obtain ⟨ld, cd, sp₂, q1, q2, q3, q4, q5, q6, q7⟩ := h5 sp top rest t1 hack
          have htop := ackedPkts_top (hi.core.sp j sp t1).sorted hack
          rw [hsp] at q1
          injection q1 with q1
          refine .inr ⟨top, List.mem_cons_self, ?_, ?_, ?_⟩
          · exact hspace top (by rw [hack]; exact List.mem_cons_self)
          · rw [hack] at htop; exact htop
          · rw [q1, q5]
            unfold ackedSpace
            simp only
            split <;> rfl
        · refine .inl ⟨?_, ?_⟩
          · cases hsi : h.s.spaces id with
            | none => rw [pkts_none hsi] at hack; cases hack
            | some x =>
              rw [pkts_some hsi] at hack
              obtain ⟨ld, cd, sp₂, q1, q2, q3, q4, q5, q6, q7⟩ := h5 x top rest hsi hack
              rw [q7 j hj, t1] at hsp
              injection hsp with hsp
              rw [hsp]
          · intro a ha hc
            have ha : a ∈ top :: rest := ha
            rw [← hack] at ha
            exact hj (hc.symm.trans (hspace a ha))
    · intro j sp' hsp
      obtain ⟨sp, t1, t2⟩ := ht j sp' hsp
      exact ⟨sp, t1, .inr ⟨(fun _ h => by cases h), .inl t2⟩⟩
  | timeout now hk =>
    obtain ⟨s₁, lost, probes, h1, h2, h3, h4⟩ := hi.core.onTimeout hi.stats hl hk
    obtain ⟨sm, g1, g2, g3, g4, g5⟩ := hi.core.onTimeout_out hi.stats hl h1
    obtain ⟨r, hr, e1⟩ := map_eq_ok hs
    rw [h1] at hr
    injection hr with hr
    subst hr
    injection e1 with e1 e2
    subst e1 e2
    refine ⟨by rw [show Ev.silent (.timeout now hk) = false from rfl, hb]; exact h2, h3, h4, ?_, ?_, ?_⟩
    · intro j q hq hle
      exact absurd (h2.below j q hq) (by omega)
    · intro j sp' hsp
      have q := (g4.la j).trans (g3.la j)
      rw [hsp] at q
      cases hs : h.s.spaces j with
      | none => rw [hs] at q; cases q
      | some sp =>
        rw [hs] at q
        simp only [Option.map_some, Option.some.injEq] at q
        exact ⟨sp, rfl, .inl ⟨q, (fun _ h => by cases h)⟩⟩
    · intro j sp' hsp
      have q := g4.times j
      rw [g3.times j, hsp] at q
      cases hs : h.s.spaces j with
      | none =>
        rw [hs] at q
        rcases q with q | ⟨_, q⟩ <;> cases q
      | some sp =>
        rw [hs] at q
        simp only [Option.map_some, Option.some.injEq] at q
        exact ⟨sp, rfl, .inr ⟨(fun _ h => by cases h), q⟩⟩
  | retry now =>
    obtain ⟨r, hr, e1⟩ := map_eq_ok hs
    injection e1 with e1 e2
    subst e1 e2
    obtain ⟨c1, c2, c3⟩ := (hi.core.retry hi.stats hl).1 r hr
    exact .quiet (by rw [show Ev.silent (.retry now) = false from rfl, hb]; exact c1) c2 c3 (retry_frame hr) rfl rfl rfl rfl rfl
  | drop0rtt now =>
    obtain ⟨r, hr, e1⟩ := map_eq_ok hs
    injection e1 with e1 e2
    subst e1 e2
    obtain ⟨c1, c2, c3⟩ := (hi.core.drop0rtt hi.stats hl).1 r hr
    exact .quiet (by rw [show Ev.silent (.drop0rtt now) = false from rfl, hb]; exact c1) c2 c3 (drop0rtt_frame hr) rfl rfl rfl rfl rfl
  | discard id now =>
    obtain ⟨r, hr, e1⟩ := map_eq_ok hs
    injection e1 with e1 e2
    subst e1 e2
    obtain ⟨c1, c2, c3⟩ := (hi.core.discardSpace hi.stats hl.1 hl.2.1 hl.2.2.1 hl.2.2.2).1 r hr
    exact .quiet (by rw [show Ev.silent (.discard id now) = false from rfl, hb]; exact c1) c2 c3 (discardSpace_frame hr) rfl rfl rfl rfl rfl
  | addPath rtt mtu =>
    injection hs with hs
    injection hs with e1 e2
    subst e1 e2
    obtain ⟨c1, c2, c3⟩ := hi.core.addPath hi.stats (rtt := rtt) hl
    exact .quiet (by rw [show Ev.silent (.addPath rtt mtu) = false from rfl, hb]; exact c1) c2 c3 (.of_spaces rfl) rfl rfl rfl rfl rfl
  | migrate i =>
    injection hs with hs
    injection hs with e1 e2
    subst e1 e2
    obtain ⟨c1, c2, c3⟩ := hi.core.migrate hi.stats hl
    exact .quiet (by rw [show Ev.silent (.migrate i) = false from rfl, hb]; exact c1) c2 c3
      (Frame.trans (.of_spaces (switchPath_spaces h.s i).1) (clearPrimary_frame _)) rfl rfl rfl rfl rfl
  | peerMigrate i =>
    injection hs with hs
    injection hs with e1 e2
    subst e1 e2
    obtain ⟨c1, c2, c3⟩ := hi.core.switchPath hi.stats i
    exact .quiet (by rw [show Ev.silent (.peerMigrate i) = true from rfl, Bool.not_true, Bool.and_false]; exact c1) c2 c3
      (.of_spaces (switchPath_spaces h.s i).1) rfl rfl rfl rfl rfl
  | setMtu mtu =>
    injection hs with hs
    injection hs with e1 e2
    subst e1 e2
    obtain ⟨c1, c2, c3⟩ := hi.core.setMtu hi.stats hl
    exact .quiet (by rw [show Ev.silent (.setMtu mtu) = false from rfl, hb]; exact c1) c2 c3 (.of_spaces rfl) rfl rfl rfl rfl rfl
  | setAckDelay d =>
    injection hs with hs
    injection hs with e1 e2
    subst e1 e2
    obtain ⟨c1, c2, c3⟩ := hi.core.setAckDelay hi.stats d
    exact .quiet (by rw [show Ev.silent (.setAckDelay d) = false from rfl, hb]; exact c1) c2 c3 (.of_spaces rfl) rfl rfl rfl rfl rfl
  | profile amp pace =>
    obtain ⟨s₁, pr, q1, c1, c2, c3⟩ := hi.core.sendProfile hi.big hi.stats amp pace
    obtain ⟨r, hr, e1⟩ := map_eq_ok hs
    rw [q1] at hr
    injection hr with hr
    subst hr
    injection e1 with e1 e2
    subst e1 e2
    exact .quiet (by rw [show Ev.silent (.profile amp pace) = false from rfl, hb]; exact c1) c2 c3 (.of_spaces (sendProfile_spaces q1)) rfl rfl rfl rfl rfl

theorem Evol.same {p q : Pkt} (h : Evol p q) : SamePkt p q := ⟨h.pt, h.pn, h.sent, h.len, h.eliciting, h.tokens⟩

theorem SamePkt.trans {a b c : Pkt} (h : SamePkt a b) (k : SamePkt b c) : SamePkt a c :=
  ⟨k.pt.trans h.pt, k.pn.trans h.pn, k.sent.trans h.sent, k.len.trans h.len, k.eliciting.trans h.eliciting, k.tokens.trans h.tokens⟩

theorem SamePkt.key {a b : Pkt} (h : SamePkt a b) : a.key = b.key := by unfold Pkt.key; rw [h.pt, h.pn]

theorem lastElicited_nil (l : List Pkt) (id : SpaceId) : lastElicited (l ++ []) id = lastElicited l id := by rw [List.append_nil]

theorem lastElicited_snoc (l : List Pkt) (p : Pkt) (id : SpaceId) :
    lastElicited (l ++ [p]) id = if p.pt.space = id ∧ p.eliciting = true then some p.sent else lastElicited l id := by
  unfold lastElicited
  rw [List.filter_append]
  by_cases h : p.pt.space = id ∧ p.eliciting = true
  · rw [if_pos h]
    have : [p].filter (fun p => decide (p.pt.space = id) && p.eliciting) = [p] := by simp [h.1, h.2]
    rw [this]
    simp
  · rw [if_neg h]
    have : [p].filter (fun p => decide (p.pt.space = id) && p.eliciting) = [] := by
      rw [List.filter_eq_nil_iff]
      intro q hq
      rw [List.mem_singleton] at hq
      rw [hq]
      simpa using h
    rw [this, List.append_nil]

theorem lastElicited_none {l : List Pkt} {id : SpaceId} (h : ∀ p ∈ l, p.pt.space ≠ id) : lastElicited l id = none := by
  unfold lastElicited
  have : l.filter (fun p => decide (p.pt.space = id) && p.eliciting) = [] := by
    rw [List.filter_eq_nil_iff]
    intro p hp
    simp [h p hp]
  rw [this]
  rfl

/-- A packet sent by a call has a new number. -/
theorem Legal.fresh (hl : Legal m h e) : ∀ p ∈ e.pkt, h.next p.pt.space ≤ p.pn ∧ h.clock ≤ p.sent := by
  intro p hp
  cases e with
  | send q on =>
    have hp : p ∈ [q] := hp
    rw [List.mem_singleton] at hp
    rw [hp]
    exact ⟨hl.2, hl.1⟩
  | _ => cases hp

theorem Ev.pkt_cases (e : Ev) : e.pkt = [] ∨ ∃ p, e.pkt = [p] ∧ (∀ f, e.next f = fun i => if i = p.pt.space then p.pn + 1 else f i) ∧ ∀ c, e.now c = p.sent := by
  cases e with
  | send p on => exact .inr ⟨p, rfl, fun _ => rfl, fun _ => rfl⟩
  | _ => exact .inl rfl

theorem Legal.clock (hl : Legal m h e) : h.clock ≤ e.now h.clock := by
  cases e with
  | send p on => exact hl.1
  | ack _ _ _ _ => exact hl.1
  | timeout _ _ => exact hl
  | retry _ => exact hl
  | drop0rtt _ => exact hl
  | discard _ _ => exact hl.1
  | _ => exact Nat.le_refl _

theorem Legal.next (hl : Legal m h e) (i : SpaceId) : h.next i ≤ e.next h.next i := by
  cases e with
  | send p on =>
    show h.next i ≤ if i = p.pt.space then p.pn + 1 else h.next i
    split
    · rename_i hi
      have := hl.2
      rw [hi]
      omega
    · exact Nat.le_refl _
  | _ => exact Nat.le_refl _

theorem Inv.next (hi : Inv m h) (hl : Legal m h e) (f : StepFacts m h e s' o) :
    Inv m { s := s', clock := e.now h.clock, next := e.next h.next, sent := h.sent ++ e.pkt, acked := h.acked ++ o.acked.map Pkt.key,
            lost := h.lost ++ o.lost.map Pkt.key, probed := h.probed ++ o.probes.map Pkt.key, dropped := h.dropped ++ o.dropped.map Pkt.key, clean := h.clean && !e.silent } := by
  have hsentOf : ∀ id, ∀ q ∈ h.s.pkts id, q.pt.space = id := by
    intro id q hq
    cases hs : h.s.spaces id with
    | none => rw [pkts_none hs] at hq; cases hq
    | some x => rw [pkts_some hs] at hq; exact (hi.core.sp id x hs).pt q hq
  have inNext : ∀ k : SpaceId × Nat, (∃ p ∈ h.sent, p.key = k) → k.2 < h.next k.1 := by
    rintro k ⟨p, hp, rfl⟩
    exact hi.sentNext p hp
  -- a packet tracked afterwards whose number is old was tracked before
  have old : ∀ id (n : Nat), n < h.next id → ∀ q ∈ s'.pkts id, q.pn = n → ∃ p ∈ h.s.pkts id, Evol p q := by
    intro id n hn q hq he
    rcases f.moves.evol id q hq with h1 | h1
    · exact h1
    · omega
  have keyMem : ∀ {l : List Pkt} {k : SpaceId × Nat}, k ∈ l.map Pkt.key → ∃ a ∈ l, k = (a.pt.space, a.pn) := by
    intro l k hk
    obtain ⟨a, ha, e⟩ := List.mem_map.mp hk
    exact ⟨a, ha, e.symm⟩
  have trackedKey : ∀ id, ∀ q ∈ h.s.pkts id, ∃ p ∈ h.sent, p.key = (id, q.pn) := by
    intro id q hq
    obtain ⟨p, hp, e⟩ := hi.tracked id q hq
    refine ⟨p, hp, ?_⟩
    rw [e.key]
    unfold Pkt.key
    rw [hsentOf id q hq]
  have outSent : ∀ k : SpaceId × Nat, (∃ p ∈ h.sent, p.key = k) → ∃ p ∈ h.sent ++ e.pkt, p.key = k := by
    rintro k ⟨p, hp, e⟩
    exact ⟨p, List.mem_append_left _ hp, e⟩
  refine ⟨hi.big, f.core, f.stats, ?_, ?_, ?_, ?_, ?_, ?_, ?_, ?_, ?_, ?_, ?_, ?_, ?_, ?_, ?_⟩
  · -- acknowledged packets are not tracked
    intro k hk q hq he
    rcases List.mem_append.mp hk with hk | hk
    · obtain ⟨p, hp, ev⟩ := old k.1 k.2 (inNext k (hi.ackedSent k hk)) q hq he
      exact hi.acked k hk p hp (ev.pn ▸ he)
    · obtain ⟨a, ha, rfl⟩ := keyMem hk
      exact (f.moves.acked a ha).2 q hq he
  · show (h.acked ++ o.acked.map Pkt.key).Nodup
    rw [List.nodup_append]
    refine ⟨hi.ackedNodup, f.moves.ackedNodup, ?_⟩
    intro k hk k' hk' e
    obtain ⟨a, ha, rfl⟩ := keyMem hk'
    exact hi.acked k hk a (by rw [e]; exact (f.moves.acked a ha).1) (by rw [e])
  · intro k hk
    rcases List.mem_append.mp hk with hk | hk
    · exact outSent k (hi.ackedSent k hk)
    · obtain ⟨a, ha, rfl⟩ := keyMem hk
      exact outSent _ (trackedKey _ a (f.moves.acked a ha).1)
  · intro k hk q hq he
    rcases List.mem_append.mp hk with hk | hk
    · obtain ⟨p, hp, ev⟩ := old k.1 k.2 (inNext k (hi.lostSent k hk)) q hq he
      have := hi.lost k hk p hp (ev.pn ▸ he)
      rw [ev.lost this]; exact this
    · obtain ⟨a, ha, rfl⟩ := keyMem hk
      exact (f.moves.lost a ha).2 q hq he
  · show (h.lost ++ o.lost.map Pkt.key).Nodup
    rw [List.nodup_append]
    refine ⟨hi.lostNodup, f.moves.lostNodup, ?_⟩
    intro k hk k' hk' e
    obtain ⟨a, ha, rfl⟩ := keyMem hk'
    obtain ⟨⟨p, hp, e1, e2⟩, _⟩ := f.moves.lost a ha
    exact hi.lost k hk p (by rw [e]; exact hp) (by rw [e]; exact e1) e2
  · intro k hk
    rcases List.mem_append.mp hk with hk | hk
    · exact outSent k (hi.lostSent k hk)
    · obtain ⟨a, ha, rfl⟩ := keyMem hk
      obtain ⟨⟨p, hp, e1, e2⟩, _⟩ := f.moves.lost a ha
      rw [← e1]
      exact outSent _ (trackedKey _ p hp)
  · intro k hk q hq he
    rcases List.mem_append.mp hk with hk | hk
    · obtain ⟨p, hp, ev⟩ := old k.1 k.2 (inNext k (hi.probedSent k hk)) q hq he
      exact ev.pto (hi.probed k hk p hp (ev.pn ▸ he))
    · obtain ⟨a, ha, rfl⟩ := keyMem hk
      exact (f.moves.probes a ha).2 q hq he
  · show (h.probed ++ o.probes.map Pkt.key).Nodup
    rw [List.nodup_append]
    refine ⟨hi.probedNodup, f.moves.probesNodup, ?_⟩
    intro k hk k' hk' e
    obtain ⟨a, ha, rfl⟩ := keyMem hk'
    obtain ⟨⟨p, hp, e1, e2, _⟩, _⟩ := f.moves.probes a ha
    have := hi.probed k hk p (by rw [e]; exact hp) (by rw [e]; exact e1)
    rw [this] at e2; cases e2
  · intro k hk
    rcases List.mem_append.mp hk with hk | hk
    · exact outSent k (hi.probedSent k hk)
    · obtain ⟨a, ha, rfl⟩ := keyMem hk
      obtain ⟨⟨p, hp, e1, e2⟩, _⟩ := f.moves.probes a ha
      rw [← e1]
      exact outSent _ (trackedKey _ p hp)
  · intro p hp
    show p.pn < e.next h.next p.pt.space
    rcases List.mem_append.mp hp with hp | hp
    · exact Nat.lt_of_lt_of_le (hi.sentNext p hp) (hl.next _)
    · rcases e.pkt_cases with e0 | ⟨q, e0, e1, _⟩
      · rw [e0] at hp; cases hp
      · rw [e0, List.mem_singleton] at hp
        rw [hp, e1]
        simp only
        rw [if_pos trivial]
        omega
  · show ((h.sent ++ e.pkt).map Pkt.key).Nodup
    refine keys_nodup_append hi.sentNodup ?_ ?_
    · rcases e.pkt_cases with e0 | ⟨q, e0, _⟩ <;> rw [e0] <;> simp
    · intro p hp q hq e1 e2
      have := hi.sentNext p hp
      have := (hl.fresh q hq).1
      rw [e1] at *
      omega
  · intro p hp
    show p.sent ≤ e.now h.clock
    rcases List.mem_append.mp hp with hp | hp
    · exact Nat.le_trans (hi.sentTime p hp) hl.clock
    · rcases e.pkt_cases with e0 | ⟨q, e0, _, e2⟩
      · rw [e0] at hp; cases hp
      · rw [e0, List.mem_singleton] at hp
        rw [hp, e2]
        exact Nat.le_refl _
  · intro id q hq
    have hq : q ∈ s'.pkts id := hq
    rcases f.moves.evol id q hq with ⟨p, hp, ev⟩ | hge
    · obtain ⟨r, hr, e⟩ := hi.tracked id p hp
      exact ⟨r, List.mem_append_left _ hr, e.trans ev.same⟩
    · obtain ⟨p, hp, e⟩ := f.fresh id q hq hge
      exact ⟨p, List.mem_append_right _ hp, e⟩
  · intro id sp' hs
    obtain ⟨sp, h1, h2⟩ := f.la id sp' hs
    obtain ⟨l1, l2⟩ := hi.la id sp h1
    show (∀ n, sp'.largestAcked = some n → (id, n) ∈ h.acked ++ o.acked.map Pkt.key) ∧
      ∀ k, (id, k) ∈ h.acked ++ o.acked.map Pkt.key → ∃ n, sp'.largestAcked = some n ∧ k ≤ n
    rcases h2 with ⟨e1, e2⟩ | ⟨top, t1, t2, t3, t4⟩
    · refine ⟨fun n hn => List.mem_append_left _ (l1 n (e1 ▸ hn)), fun k hk => ?_⟩
      rcases List.mem_append.mp hk with hk | hk
      · rw [e1]; exact l2 k hk
      · obtain ⟨a, ha, e⟩ := keyMem hk
        injection e with e _
        exact absurd e.symm (e2 a ha)
    · have htm : (id, top.pn) ∈ o.acked.map Pkt.key := by
        refine List.mem_map.mpr ⟨top, t1, ?_⟩
        unfold Pkt.key
        rw [t2]
      have hnew : ∀ k, (id, k) ∈ o.acked.map Pkt.key → k ≤ top.pn := by
        intro k hk
        obtain ⟨a, ha, e⟩ := keyMem hk
        injection e with _ e
        rw [e]; exact t3 a ha
      cases hla : sp.largestAcked with
      | none =>
        rw [hla] at t4
        simp only [Option.all_none, if_true] at t4
        refine ⟨fun n hn => ?_, fun k hk => ⟨top.pn, t4, ?_⟩⟩
        · rw [t4] at hn
          injection hn with hn
          rw [← hn]
          exact List.mem_append_right _ htm
        · rcases List.mem_append.mp hk with hk | hk
          · obtain ⟨n, hn, _⟩ := l2 k hk
            rw [hla] at hn; cases hn
          · exact hnew k hk
      | some n₀ =>
        rw [hla] at t4
        simp only [Option.all_some, decide_eq_true_eq] at t4
        split at t4
        · rename_i hgt
          refine ⟨fun n hn => ?_, fun k hk => ⟨top.pn, t4, ?_⟩⟩
          · rw [t4] at hn
            injection hn with hn
            rw [← hn]
            exact List.mem_append_right _ htm
          · rcases List.mem_append.mp hk with hk | hk
            · obtain ⟨n, hn, hk⟩ := l2 k hk
              rw [hla] at hn
              injection hn with hn
              omega
            · exact hnew k hk
        · rename_i hgt
          refine ⟨fun n hn => ?_, fun k hk => ⟨n₀, t4, ?_⟩⟩
          · rw [t4] at hn
            injection hn with hn
            rw [← hn]
            exact List.mem_append_left _ (l1 n₀ hla)
          · rcases List.mem_append.mp hk with hk | hk
            · obtain ⟨n, hn, hk⟩ := l2 k hk
              rw [hla] at hn
              injection hn with hn
              omega
            · have := hnew k hk
              omega
  · intro id sp' hs
    obtain ⟨sp, h1, h2⟩ := f.le id sp' hs
    obtain ⟨l1, l2, l3⟩ := hi.le id sp h1
    show (∀ t, lastElicited (h.sent ++ e.pkt) id = some t → sp'.lastEliciting = some t) ∧ (id = .app → sp'.lastEliciting = lastElicited (h.sent ++ e.pkt) id) ∧
      (id ≠ .app → sp'.lastEliciting = none → ∀ p ∈ h.sent ++ e.pkt, p.pt.space ≠ id)
    rcases h2 with ⟨p, e1, e2, e3⟩ | ⟨e1, e2⟩
    · rw [e1, lastElicited_snoc]
      by_cases hel : p.eliciting = true
      · rw [if_pos (.inl hel)] at e3
        rw [if_pos ⟨e2, hel⟩, e3]
        exact ⟨fun t ht => ht, fun _ => rfl, (fun _ hc => by cases hc)⟩
      · rw [if_neg (fun hc => hel hc.2)]
        by_cases hid : id ≠ .app ∧ sp.lastEliciting = none
        · rw [if_pos (.inr hid)] at e3
          refine ⟨?_, fun hc => absurd hc hid.1, fun _ hc => by rw [e3] at hc; cases hc⟩
          intro t ht
          rw [lastElicited_none (l3 hid.1 hid.2)] at ht
          cases ht
        · rw [if_neg (fun hc => hc.elim hel hid)] at e3
          refine ⟨fun t ht => by rw [e3]; exact l1 t ht, fun hc => by rw [e3]; exact l2 hc, fun hne hn => ?_⟩
          rw [e3] at hn
          exact absurd ⟨hne, hn⟩ hid
    · have hlast : lastElicited (h.sent ++ e.pkt) id = lastElicited h.sent id := by
        rcases e.pkt_cases with e0 | ⟨q, e0, _⟩
        · rw [e0, List.append_nil]
        · rw [e0, lastElicited_snoc, if_neg]
          exact fun hc => e1 q (by rw [e0]; exact List.mem_singleton.mpr rfl) hc.1
      rw [hlast]
      rcases e2 with e2 | ⟨e2, e3⟩
      · rw [e2]
        refine ⟨l1, l2, fun hne hn p hp => ?_⟩
        rcases List.mem_append.mp hp with hp | hp
        · exact l3 hne hn p hp
        · exact e1 p hp
      · have hne : id ≠ .app := by rw [e2]; decide
        have hno := l3 hne e3
        refine ⟨?_, fun hc => absurd hc hne, fun _ _ p hp => ?_⟩
        · intro t ht
          rw [lastElicited_none hno] at ht
          cases ht
        · rcases List.mem_append.mp hp with hp | hp
          · exact hno p hp
          · exact e1 p hp

/-- The parts of a step. -/
theorem Hist.step_ok (hs : h.step e = .ok (h', o)) : ∃ s', h.s.step e = .ok (s', o) ∧
    h' = { s := s', clock := e.now h.clock, next := e.next h.next, sent := h.sent ++ e.pkt, acked := h.acked ++ o.acked.map Pkt.key,
           lost := h.lost ++ o.lost.map Pkt.key, probed := h.probed ++ o.probes.map Pkt.key, dropped := h.dropped ++ o.dropped.map Pkt.key, clean := h.clean && !e.silent } := by
  unfold Hist.step at hs
  split at hs
  · cases hs
  · rename_i s₁ o₁ h1
    injection hs with hs
    injection hs with e1 e2
    subst e2
    exact ⟨s₁, h1, e1.symm⟩

theorem Reached.inv (h : Reached m h') : Inv m h' := by
  induction h with
  | new hm hmtu => exact .new hm hmtu
  | step _ hl hs ih =>
    obtain ⟨s', h1, rfl⟩ := Hist.step_ok hs
    exact ih.next hl (ih.facts hl h1)

end Neqo.Rec
