import Verif.Acks.Inv

/-! # Properties of acknowledgement generation and expansion -/
namespace Neqo.Acks
open Neqo.Codec (maxVarint)

theorem step_packet_cases {h h' : Hist} {now pn el o} (hs : h.step (.packet now pn el) = .ok (h', o)) :
    (h.s.isDuplicate pn = true ∧ h' = h ∧ o = .duplicate) ∨
    (h.s.isDuplicate pn = false ∧ ∃ s' lg, h.s.setReceived now pn el = .ok (s', lg) ∧ o = .processed lg ∧
      h' = ⟨s', { h.r with received := pn :: h.r.received, clock := max h.r.clock now, since := if el then h.r.since + 1 else h.r.since }⟩) := by
  simp only [Hist.step] at hs
  by_cases hd : h.s.isDuplicate pn = true
  · rw [if_pos hd] at hs; cases hs; exact .inl ⟨hd, rfl, rfl⟩
  · rw [if_neg hd] at hs
    rw [Except.bind_eq_ok] at hs
    obtain ⟨⟨s', lg⟩, e, hs⟩ := hs
    cases hs
    exact .inr ⟨by simpa using hd, s', lg, e, rfl, rfl⟩

theorem step_write_cases {h h' : Hist} {now rtt remaining f} (hi : HI h)
    (hs : h.step (.write now rtt remaining) = .ok (h', .frame f)) :
    h.s.writeFrame now rtt remaining =
        .ok ({ h.s with ackTime := none, lastAckTime := some now, count := 0 }, some (f, h.s.picked remaining)) ∧
      h'.s = { h.s with ackTime := none, lastAckTime := some now, count := 0 } ∧
      h'.r = { h.r with sent := h.r.sent ++ [h.s.picked remaining], clock := max h.r.clock now, since := 0 } ∧
      h.s.picked remaining ≠ [] ∧ f.ranges.length + 1 = (h.s.picked remaining).length ∧
      expand f.largest f.first f.ranges = some ((h.s.picked remaining).map (fun x => (x.smallest, x.largest))) ∧
      ∀ i, f.Covers i ↔ In (h.s.picked remaining) i := by
  simp only [Hist.step] at hs
  rcases writeFrame_cases now rtt remaining hi.wf with ⟨e, _⟩ | ⟨f', e, _, _, h1, h2, h3, h4⟩
  · rw [e] at hs; cases hs
  · rw [e] at hs; cases hs
    exact ⟨e, rfl, rfl, h1, h2, h3, h4⟩

theorem WF.gap {rs : List PRange} (hw : WF rs) {x} (hx : x ∈ rs) : ¬ In rs (x.largest + 1) := by
  induction rs with
  | nil => cases hx
  | cons r rs ih =>
    intro hc
    have hl := hw.head_largest hc
    rcases List.mem_cons.mp hx with rfl | hx
    · omega
    · have := hw.2.1 x hx
      rcases In_cons.mp hc with hc | hc
      · omega
      · exact ih hw.2.2 hx hc

theorem WF.exact {rs : List PRange} (hw : WF rs) {a b : Nat} (hab : a ≤ b) (hall : ∀ i, a ≤ i → i ≤ b → In rs i)
    (hb : ¬ In rs (b + 1)) (ha : a = 0 ∨ ¬ In rs (a - 1)) : ∃ x ∈ rs, x.smallest = a ∧ x.largest = b := by
  obtain ⟨x, hx, h1, h2⟩ := hall a (Nat.le_refl _) hab
  have h3 : a ≤ x.smallest := by
    rcases ha with rfl | ha
    · omega
    · by_contra hc
      exact ha ⟨x, hx, by omega, by omega⟩
  have h4 : x.largest ≤ b := by
    by_contra hc
    exact hb ⟨x, hx, by omega, by omega⟩
  have h5 : b ≤ x.largest := by
    by_contra hc
    exact hw.gap hx (hall (x.largest + 1) (by omega) (by omega))
  exact ⟨x, hx, by omega, by omega⟩

/-! ## C22: what ACK frames report -/

/-- Every number an ACK frame covers was received. -/
theorem C22_only_received {h h' : Hist} {now rtt remaining f} (hr : Reached h)
    (hs : h.step (.write now rtt remaining) = .ok (h', .frame f)) {i : Nat} (hc : f.Covers i) : i ∈ h.r.received := by
  obtain ⟨_, _, _, _, _, _, hcov⟩ := step_write_cases hr.hi hs
  obtain ⟨x, hx, hxi⟩ := (hcov i).mp hc
  exact ((hr.hi.mem i).mp ⟨x, (picked_sub _ _).subset hx, hxi⟩).1

/-- Whatever was received, is still tracked and was not in an ACK frame known to have arrived is in the
next frame; or it is older than everything in that frame and the frame is full. -/
theorem C22_unconfirmed_reported {h h' : Hist} {now rtt remaining f} (hr : Reached h)
    (hs : h.step (.write now rtt remaining) = .ok (h', .frame f)) {i : Nat}
    (hi : i ∈ h.r.received) (ht : h.s.minTracked ≤ i) (hn : ¬ h.r.Confirmed i) :
    f.Covers i ∨ ((∀ j, f.Covers j → i < j) ∧ f.ranges.length + 1 = min (1 + (remaining - 50) / 16) 32) := by
  obtain ⟨_, _, _, _, hlen, _, hcov⟩ := step_write_cases hr.hi hs
  obtain ⟨x, hx, hxi⟩ := (hr.hi.mem i).mpr ⟨hi, ht⟩
  have hxn : x.needed = true := by
    cases hx' : x.needed with
    | true => rfl
    | false =>
      obtain ⟨k, hk, rs, hrs, y, hy, h1, h2⟩ := hr.hi.needed x hx hx'
      exact absurd ⟨k, hk, rs, hrs, y, hy, by omega, by omega⟩ hn
  have hf : x ∈ h.s.ranges.filter (fun r => r.needed) := List.mem_filter.mpr ⟨hx, hxn⟩
  have hwf : WF (h.s.ranges.filter (fun r => r.needed)) := hr.hi.wf.sublist List.filter_sublist
  have hpick : h.s.picked remaining = (h.s.ranges.filter (fun r => r.needed)).take (min (1 + (remaining - 50) / 16) 32) := rfl
  have hsplit := List.take_append_drop (min (1 + (remaining - 50) / 16) 32) (h.s.ranges.filter (fun r => r.needed))
  rw [← hpick] at hsplit
  rw [← hsplit] at hf hwf
  rcases List.mem_append.mp hf with hf | hf
  · exact .inl ((hcov i).mpr ⟨x, hf, hxi⟩)
  · right
    constructor
    · intro j hj
      obtain ⟨y, hy, hyj⟩ := (hcov j).mp hj
      have := hwf.append hy hf
      omega
    · rw [hlen, hpick, List.length_take]
      have : (h.s.ranges.filter (fun r => r.needed)).drop (min (1 + (remaining - 50) / 16) 32) ≠ [] := List.ne_nil_of_mem hf
      rw [Ne, List.drop_eq_nil_iff] at this
      omega

/-- The largest number received is in the frame unless it is known that the peer has seen its
acknowledgement. -/
theorem C22_largest_reported {h h' : Hist} {now rtt remaining f} (hr : Reached h)
    (hs : h.step (.write now rtt remaining) = .ok (h', .frame f)) {i : Nat}
    (hi : i ∈ h.r.received) (hmax : ∀ j ∈ h.r.received, j ≤ i) (hn : ¬ h.r.Confirmed i) : f.Covers i := by
  have ht : h.s.minTracked ≤ i := by
    have hne := hr.hi.ne (List.ne_nil_of_mem hi)
    obtain ⟨x, hx⟩ := List.exists_mem_of_ne_nil _ hne
    have := (hr.hi.mem x.largest).mp ⟨x, hx, hr.hi.wf.le hx, Nat.le_refl _⟩
    have := hmax _ this.1
    omega
  rcases C22_unconfirmed_reported hr hs hi ht hn with hc | ⟨hc, _⟩
  · exact hc
  · obtain ⟨_, _, _, hne, _, _, hcov⟩ := step_write_cases hr.hi hs
    obtain ⟨x, hx⟩ := List.exists_mem_of_ne_nil _ hne
    have hx' : f.Covers x.largest :=
      (hcov _).mpr ⟨x, hx, hr.hi.wf.le ((picked_sub _ _).subset hx), Nat.le_refl _⟩
    have h1 := hc _ hx'
    have h2 := hmax _ (C22_only_received hr hs hx')
    omega

/-- A frame known to have arrived stops its ranges being reported again, unless a range has grown. -/
theorem C22_confirmed_not_repeated {h h1 h2 : Hist} {k o now rtt remaining f rs y} (hr : Reached h)
    (hk : h.r.sent[k]? = some rs) (hy : y ∈ rs)
    (hs1 : h.step (.acked k) = .ok (h1, o)) (hs2 : h1.step (.write now rtt remaining) = .ok (h2, .frame f))
    (hlow : y.smallest = 0 ∨ y.smallest - 1 ∉ h.r.received) (hhigh : y.largest + 1 ∉ h.r.received)
    {i : Nat} (hi : y.smallest ≤ i ∧ i ≤ y.largest) : ¬ f.Covers i := by
  have hi0 := hr.hi
  have hmem := List.mem_of_getElem? hk
  have hr1 : HI h1 := by
    obtain ⟨h', o', e, h''⟩ := hi0.step (.acked k)
    rw [hs1] at e; cases e; exact h''
  have hst : h1.s = { h.s with ranges := ackLoop h.s.ranges rs } := by
    simp only [Hist.step, hk] at hs1
    rw [Except.bind_eq_ok] at hs1
    obtain ⟨s', e, hs1⟩ := hs1
    cases hs1
    unfold Recvd.acknowledged at e
    split at e
    · cases e
    · cases e; rfl
  obtain ⟨_, _, _, _, _, _, hcov⟩ := step_write_cases hr1 hs2
  intro hc
  obtain ⟨z, hz, hzi⟩ := (hcov i).mp hc
  have hzr := (picked_sub _ _).subset hz
  have hzn : z.needed = true := (List.mem_filter.mp ((List.take_sublist _ _).subset hz)).2
  have hw1 := hr1.wf
  -- the reported range is still a range of its own
  have hzle := hr1.wf.le hzr
  have hin : ∀ j, In h.s.ranges j ↔ In h1.s.ranges j := by
    intro j; rw [hst]; exact ((ackLoop_rel _ _).in_iff j).symm
  have hyle := (hi0.sentWf rs hmem).le hy
  have hmt : h1.s.minTracked = h.s.minTracked := by rw [hst]
  obtain ⟨x, hx, hx1, hx2⟩ := (hin i).mpr ⟨z, hzr, hzi⟩
  -- the part of the reported range that is still tracked
  have hmi := ((hi0.mem i).mp ⟨x, hx, hx1, hx2⟩).2
  have hxy2 : x.largest = y.largest := by
    have hle : x.largest ≤ y.largest := by
      by_contra hc'
      exact hhigh ((hi0.mem _).mp ⟨x, hx, by omega, by omega⟩).1
    have hge : y.largest ≤ x.largest := by
      by_contra hc'
      refine hi0.wf.gap hx ((hi0.mem _).mpr ⟨hi0.sentRecv rs hmem _ ⟨y, hy, by omega, by omega⟩, by omega⟩)
    omega
  have hxy1 : y.smallest ≤ x.smallest := by
    by_contra hc'
    rcases hlow with hlow | hlow
    · omega
    · exact hlow ((hi0.mem _).mp ⟨x, hx, by omega, by omega⟩).1
  have hxy3 : x.smallest = y.smallest ∨ y.smallest < x.smallest := by omega
  rcases hxy3 with hxy3 | hxy3
  · obtain ⟨w, hw, w1, w2, w3⟩ := ackLoop_exact h.s.ranges rs hi0.wf (hi0.sentWf rs hmem) hx hy hxy2.symm hxy3.symm
    have hwz : w = z := by
      have hw' : w ∈ h1.s.ranges := by rw [hst]; exact hw
      rcases List.mem_iff_append.mp hzr with ⟨p, q, hpq⟩
      rw [hpq] at hw' hw1
      rcases List.mem_append.mp hw' with hw' | hw'
      · have := hw1.append hw' (List.mem_cons_self (a := z) (l := q)); omega
      · rcases List.mem_cons.mp hw' with hw' | hw'
        · exact hw'
        · have hsub : WF (z :: q) := hw1.sublist (List.sublist_append_right _ _)
          have := hsub.2.1 w hw'
          omega
    rw [hwz] at w3
    rw [hzn] at w3
    cases w3
  · -- a range cannot lose its low end while its high end is tracked
    have h1 : x.smallest - 1 ∈ h.r.received := hi0.sentRecv rs hmem _ ⟨y, hy, by omega, by omega⟩
    have hlt : x.smallest - 1 < h.s.minTracked := by
      by_contra hc'
      obtain ⟨v, hv, v1, v2⟩ := (hi0.mem (x.smallest - 1)).mpr ⟨h1, by omega⟩
      by_cases hvl : v.largest + 1 = x.smallest
      · refine hi0.wf.gap hv ?_
        rw [hvl]
        exact ⟨x, hx, Nat.le_refl _, by omega⟩
      · rcases List.mem_iff_append.mp hx with ⟨p, q, hpq⟩
        have hw := hi0.wf
        rw [hpq] at hv hw
        rcases List.mem_append.mp hv with hv | hv
        · have := hw.append hv (List.mem_cons_self (a := x) (l := q)); omega
        · rcases List.mem_cons.mp hv with hv | hv
          · subst hv; omega
          · have hsub : WF (x :: q) := hw.sublist (List.sublist_append_right _ _)
            have := hsub.2.1 v hv
            omega
    rcases hi0.sentCut rs hmem y hy with hcut | hcut <;> omega

/-! ## C23: packet numbers are processed at most once -/

/-- The numbers processed are pairwise different. -/
theorem C23_processed_once {h : Hist} (hr : Reached h) : h.r.received.Nodup := hr.hi.nodup

/-- A packet with a number that was processed is dropped. -/
theorem C23_duplicate_dropped {h : Hist} (hr : Reached h) {pn : Nat} (hp : pn ∈ h.r.received) (now : Nat) (el : Bool) :
    h.step (.packet now pn el) = .ok (h, .duplicate) := by
  simp only [Hist.step]
  rw [if_pos ((dup_iff hr.hi pn).mpr (.inr hp))]

/-- What was processed stays so. -/
theorem C23_received_forever {h h' : Hist} {op o} (hs : h.step op = .ok (h', o)) {pn : Nat}
    (hp : pn ∈ h.r.received) : pn ∈ h'.r.received := by
  cases op with
  | packet now p el =>
    rcases step_packet_cases hs with ⟨_, rfl, _⟩ | ⟨_, s', lg, _, _, rfl⟩
    · exact hp
    · exact List.mem_cons_of_mem _ hp
  | immediate t => cases hs; exact hp
  | ackFreq _ _ _ _ => cases hs; exact hp
  | ecn _ => cases hs; exact hp
  | write now rtt rem =>
    simp only [Hist.step] at hs
    rw [Except.bind_eq_ok] at hs
    obtain ⟨⟨s', o'⟩, _, hs⟩ := hs
    cases o' <;> cases hs <;> exact hp
  | acked k =>
    simp only [Hist.step] at hs
    cases hk : h.r.sent[k]? with
    | none => rw [hk] at hs; cases hs; exact hp
    | some rs =>
      rw [hk] at hs
      simp only at hs
      rw [Except.bind_eq_ok] at hs
      obtain ⟨_, _, hs⟩ := hs
      cases hs; exact hp

/-- A number that is not a duplicate becomes one only by being processed, or when there are 33 separate
runs of received numbers that end at or above it. -/
theorem C23_new_duplicate {h h' : Hist} {op o} (hr : Reached h) (hs : h.step op = .ok (h', o)) {i : Nat}
    (h1 : h.s.isDuplicate i = false) (h2 : h'.s.isDuplicate i = true) :
    (∃ now el, op = .packet now i el) ∨
    ∃ ends : List Nat, ends.Nodup ∧ ends.length = 33 ∧ ∀ e ∈ ends, i ≤ e ∧ e ∈ h'.r.received ∧ e + 1 ∉ h'.r.received := by
  have hi := hr.hi
  have hi' : HI h' := by
    obtain ⟨h'', o', e, h3⟩ := hi.step op
    rw [hs] at e; cases e; exact h3
  have n1 := mt (dup_iff hi i).mpr (by rw [h1]; simp)
  have n2 := (dup_iff hi' i).mp h2
  cases op with
  | packet now p el =>
    rcases step_packet_cases hs with ⟨_, rfl, _⟩ | ⟨hd, s', lg, e, _, rfl⟩
    · rw [h1] at h2; cases h2
    · by_cases hpi : i = p
      · subst hpi; exact .inl ⟨_, _, rfl⟩
      · right
        obtain ⟨s'', lg', e', p1, p2, p3, p4, p5, _⟩ := setReceived_ok hi (now := now) (eliciting := el) hd
        rw [e] at e'; cases e'
        simp only [List.mem_cons] at n2
        have hlt : i < s'.minTracked := by
          rcases n2 with n2 | n2 | n2
          · exact n2
          · exact absurd n2 hpi
          · exact absurd (.inr n2) n1
        rcases p5 with h' | ⟨_, _, hlen, hgap, j, hj, hjm⟩
        · exfalso; apply n1; left; rw [← h']; exact hlt
        · have hnd : (s'.ranges.map (fun x => x.largest)).Nodup := by
            clear p2 p3 p4 hlen hgap hi' n2 h2 e hs
            generalize s'.ranges = rs at p1
            induction rs with
            | nil => exact List.nodup_nil
            | cons r rs ih =>
              rw [List.map_cons, List.nodup_cons]
              refine ⟨?_, ih p1.2.2⟩
              intro hc
              obtain ⟨x, hx, hxe⟩ := List.mem_map.mp hc
              have := p1.2.1 x hx
              have := p1.1
              omega
          have hjr : j ∈ p :: h.r.received := by
            rcases hj with hj | hj
            · exact List.mem_cons_of_mem _ ((hi.mem j).mp hj).1
            · rw [hj]; exact List.mem_cons_self
          have hge : ∀ x ∈ s'.ranges, s'.minTracked ≤ x.largest := fun x hx =>
            ((p4 _).mp ⟨x, hx, p1.le hx, Nat.le_refl _⟩).2
          refine ⟨j :: s'.ranges.map (fun x => x.largest), ?_, ?_, ?_⟩
          · refine List.nodup_cons.mpr ⟨?_, hnd⟩
            intro hc
            obtain ⟨x, hx, hxe⟩ := List.mem_map.mp hc
            have := hge x hx
            omega
          · rw [List.length_cons, List.length_map, hlen]; rfl
          · intro e' he'
            rcases List.mem_cons.mp he' with rfl | he'
            · refine ⟨by omega, hjr, ?_⟩
              intro hc
              exact hgap ((hi'.mem _).mpr ⟨by rw [hjm]; exact hc, Nat.le_refl _⟩)
            · obtain ⟨x, hx, rfl⟩ := List.mem_map.mp he'
              have := hge x hx
              refine ⟨by omega, ((hi'.mem _).mp ⟨x, hx, p1.le hx, Nat.le_refl _⟩).1, ?_⟩
              intro hc
              exact p1.gap hx ((hi'.mem _).mpr ⟨hc, show s'.minTracked ≤ _ by omega⟩)
  | immediate t => cases hs; exact absurd n2 n1
  | ackFreq q t d ig =>
    cases hs
    exfalso; apply n1
    have : (h.s.ackFreq q t d ig).minTracked = h.s.minTracked := by unfold Recvd.ackFreq; split <;> rfl
    rw [← this]; exact n2
  | ecn _ => cases hs; exact absurd n2 n1
  | write now rtt rem =>
    simp only [Hist.step] at hs
    rcases writeFrame_cases now rtt rem hi.wf with ⟨e, _⟩ | ⟨f', e, _⟩ <;> rw [e] at hs <;> cases hs <;> exact absurd n2 n1
  | acked k =>
    simp only [Hist.step] at hs
    cases hk : h.r.sent[k]? with
    | none => rw [hk] at hs; cases hs; exact absurd n2 n1
    | some rs =>
      rw [hk] at hs
      simp only at hs
      rw [Except.bind_eq_ok] at hs
      obtain ⟨s', e, hs⟩ := hs
      cases hs
      unfold Recvd.acknowledged at e
      split at e
      · cases e
      · cases e; exact absurd n2 n1

/-! ## C24: ranges are well formed -/

/-- No sequence of events makes the tracker panic or underflow. -/
theorem C24_never_fails (app : Bool) (ops : List Op) : ∃ h, (Hist.new app).run ops = .ok h := by
  obtain ⟨h, e, _⟩ := (HI.new app).run ops
  exact ⟨h, e⟩

theorem WF.pairwise : ∀ {rs : List PRange}, WF rs → rs.Pairwise (fun x y => y.largest + 2 ≤ x.smallest)
  | [], _ => .nil
  | _ :: _, h => .cons (fun y hy => by have := h.2.1 y hy; omega) h.2.2.pairwise

/-- Ranges are descending, separated by at least one number, and at most 32. -/
theorem C24_well_formed {h : Hist} (hr : Reached h) :
    h.s.ranges.Pairwise (fun x y => y.largest + 2 ≤ x.smallest) ∧ (∀ x ∈ h.s.ranges, x.smallest ≤ x.largest) ∧
      h.s.ranges.length ≤ 32 :=
  ⟨hr.hi.wf.pairwise, fun _ hx => hr.hi.wf.le hx, hr.hi.len⟩

/-- The ranges hold exactly what was received and not given up. -/
theorem C24_ranges_exact {h : Hist} (hr : Reached h) (i : Nat) :
    (∃ x ∈ h.s.ranges, x.smallest ≤ i ∧ i ≤ x.largest) ↔ i ∈ h.r.received ∧ h.s.minTracked ≤ i := hr.hi.mem i

/-- A generated frame is legal: it has at most 32 ranges and none goes below zero. -/
theorem C24_frame_legal {h h' : Hist} {now rtt remaining f} (hr : Reached h)
    (hs : h.step (.write now rtt remaining) = .ok (h', .frame f)) :
    f.ranges.length < 32 ∧ expand f.largest f.first f.ranges ≠ none := by
  obtain ⟨_, _, _, _, hlen, hex, _⟩ := step_write_cases hr.hi hs
  refine ⟨?_, by rw [hex]; simp⟩
  have := (picked_sub h.s remaining).length_le
  have := hr.hi.len
  unfold maxTracked at this
  omega

/-! ## C25: expanding ACK frames -/

/-- While the number before the last range is known exactly. -/
theorem decode_good : ∀ {ranges : List (Nat × Nat)} {cur smallest : Nat}, cur + 1 = smallest →
    (∀ out, expandFrom smallest ranges = some out → decodeRanges cur ranges = .ok out) ∧
    (∀ out, decodeRanges cur ranges = .ok out → expandFrom smallest ranges = some out ∨
      ∃ pre out', ranges = pre ++ [(0, 0)] ∧ pre ≠ [] ∧ expandFrom smallest pre = some out' ∧
        out'.getLast?.map (fun x => x.1) = some 1 ∧ out = out' ++ [(0, 0)])
  | [], _, _, _ => ⟨fun out h => by cases h; rfl, fun out h => by cases h; exact .inl rfl⟩
  | (gap, range) :: rs, cur, smallest, hc => by
    by_cases h1 : gap + 2 + range ≤ smallest
    · have g1 : ¬ cur < gap + 1 := by omega
      have g2 : ¬ cur - gap - 1 < range := by omega
      have q1 : cur - gap - 1 = smallest - gap - 2 := by omega
      have ex : expandFrom smallest ((gap, range) :: rs) =
          (expandFrom (smallest - gap - 2 - range) rs).map ((smallest - gap - 2 - range, smallest - gap - 2) :: ·) := by
        rw [expandFrom, if_pos h1]
      have dx : decodeRanges cur ((gap, range) :: rs) =
          match decodeRanges (if smallest - gap - 2 > range + 1 then smallest - gap - 2 - (range + 1) else smallest - gap - 2 - range) rs with
          | .error e => .error e
          | .ok out => .ok ((smallest - gap - 2 - range, smallest - gap - 2) :: out) := by
        rw [decodeRanges, if_neg g1]
        simp only
        rw [if_neg g2, q1]
        rfl
      rw [ex, dx]
      by_cases h2 : smallest - gap - 2 > range + 1
      · rw [if_pos h2]
        obtain ⟨ih1, ih2⟩ := decode_good (ranges := rs) (cur := smallest - gap - 2 - (range + 1))
          (smallest := smallest - gap - 2 - range) (by omega)
        constructor
        · intro out h
          cases he : expandFrom (smallest - gap - 2 - range) rs with
          | none => rw [he] at h; cases h
          | some o => rw [he] at h; cases h; rw [ih1 o he]
        · intro out h
          cases hd : decodeRanges (smallest - gap - 2 - (range + 1)) rs with
          | error e => rw [hd] at h; cases h
          | ok o =>
            rw [hd] at h; cases h
            rcases ih2 o hd with hx | ⟨pre, out', e1, e2, e3, e4, e5⟩
            · left; rw [hx]; rfl
            · right
              refine ⟨(gap, range) :: pre, (smallest - gap - 2 - range, smallest - gap - 2) :: out', by rw [e1]; rfl, by simp, ?_, ?_, by rw [e5]; rfl⟩
              · rw [expandFrom, if_pos h1, e3]; rfl
              · rw [List.getLast?_cons]
                cases out' with
                | nil => cases e4
                | cons a as => rw [List.getLast?_cons] at e4 ⊢; simpa using e4
      · rw [if_neg h2]
        generalize hs' : smallest - gap - 2 - range = s' at *
        have hs'' : s' ≤ 1 := by omega
        cases rs with
        | nil =>
          constructor
          · intro out h; cases h; rfl
          · intro out h; cases h; left; rfl
        | cons p rs =>
          obtain ⟨g, r⟩ := p
          constructor
          · intro out h
            rw [expandFrom, if_neg (by omega)] at h; cases h
          · intro out h
            rw [decodeRanges] at h
            by_cases k1 : s' < g + 1
            · rw [if_pos k1] at h; cases h
            · rw [if_neg k1] at h
              simp only at h
              have hg : g = 0 := by omega
              have hs1 : s' = 1 := by omega
              subst hg hs1
              by_cases k2 : 1 - 0 - 1 < r
              · rw [if_pos k2] at h; cases h
              · rw [if_neg k2] at h
                have hr0 : r = 0 := by omega
                subst hr0
                cases rs with
                | nil =>
                  cases h
                  right
                  refine ⟨[(gap, range)], [(1, smallest - gap - 2)], rfl, by simp, ?_, rfl, rfl⟩
                  rw [expandFrom, if_pos h1, hs']; rfl
                | cons p rs =>
                  obtain ⟨g, r⟩ := p
                  rw [decodeRanges, if_pos (by simp)] at h
                  cases h
    · constructor
      · intro out h
        rw [expandFrom, if_neg h1] at h; cases h
      · intro out h
        rw [decodeRanges] at h
        by_cases k1 : cur < gap + 1
        · rw [if_pos k1] at h; cases h
        · rw [if_neg k1] at h
          simp only at h
          rw [if_pos (by omega)] at h; cases h

/-- Every legal frame is expanded as RFC 9000 says. -/
theorem C25_legal_frames {largest first : Nat} {ranges out} (h : expand largest first ranges = some out) :
    decodeAck largest first ranges = .ok out := by
  unfold expand at h
  by_cases h1 : first ≤ largest
  · rw [if_pos h1] at h
    unfold decodeAck
    rw [if_neg (by omega)]
    cases ranges with
    | nil =>
      cases h
      rw [if_neg (by simp)]
      rfl
    | cons p rs =>
      have h2 : 1 ≤ largest - first := by
        obtain ⟨g, r⟩ := p
        by_contra hc
        rw [expandFrom, if_neg (by omega)] at h; cases h
      rw [if_neg (by rintro ⟨_, h'⟩; omega), if_neg (by simp)]
      cases he : expandFrom (largest - first) (p :: rs) with
      | none => rw [he] at h; cases h
      | some o =>
        rw [he] at h; cases h
        rw [(decode_good (by omega)).1 o he]
  · rw [if_neg h1] at h; cases h

/-- Frames that are accepted are legal, except for one form: a legal frame that ends at packet number
one, followed by a range with gap and length zero, is read as if that range were packet number zero.
Missing for the full claim: this form should be rejected, since the range is number minus one. -/
theorem C25_accepted_frames_partial {largest first : Nat} {ranges out} (h : decodeAck largest first ranges = .ok out) :
    expand largest first ranges = some out ∨
    ∃ pre out', ranges = pre ++ [(0, 0)] ∧ pre ≠ [] ∧ expand largest first pre = some out' ∧
      out'.getLast?.map (fun x => x.1) = some 1 ∧ out = out' ++ [(0, 0)] := by
  unfold decodeAck at h
  by_cases h1 : largest < first
  · rw [if_pos h1] at h; cases h
  rw [if_neg h1] at h
  unfold expand
  rw [if_pos (by omega)]
  cases ranges with
  | nil =>
    rw [if_neg (by simp)] at h
    cases h
    left; rfl
  | cons p rs =>
    by_cases h2 : p :: rs ≠ [] ∧ largest < first + 1
    · rw [if_pos h2] at h; cases h
    · rw [if_neg h2, if_neg (by simp)] at h
      have h3 : first + 1 ≤ largest := by
        by_contra hc
        exact h2 ⟨by simp, by omega⟩
      cases hd : decodeRanges (largest - first - 1) (p :: rs) with
      | error e => rw [hd] at h; cases h
      | ok o =>
        rw [hd] at h; cases h
        rcases (decode_good (smallest := largest - first) (by omega)).2 o hd with hx | ⟨pre, out', e1, e2, e3, e4, e5⟩
        · left; rw [hx]; rfl
        · right
          refine ⟨pre, (largest - first, largest) :: out', e1, e2, ?_, ?_, by rw [e5]; rfl⟩
          · rw [if_pos (by omega), e3]; rfl
          · rw [List.getLast?_cons]
            cases out' with
            | nil => cases e4
            | cons a as => rw [List.getLast?_cons] at e4 ⊢; simpa using e4

/-- The claim that illegal frames are rejected is false: a frame with a range below zero is accepted. -/
theorem C25_accepts_below_zero :
    expand 5 0 [(0, 2), (0, 0)] = none ∧ decodeAck 5 0 [(0, 2), (0, 0)] = .ok [(5, 5), (1, 3), (0, 0)] := ⟨rfl, rfl⟩

/-- Expanding a frame generated by the tracker gives the ranges that it put in, which are ranges it
holds, largest first. -/
theorem C25_round_trip {h h' : Hist} {now rtt remaining f} (hr : Reached h)
    (hs : h.step (.write now rtt remaining) = .ok (h', .frame f)) :
    ∃ rs, h'.r.sent = h.r.sent ++ [rs] ∧ rs.Sublist h.s.ranges ∧
      decodeAck f.largest f.first f.ranges = .ok (rs.map (fun x => (x.smallest, x.largest))) := by
  obtain ⟨_, _, hr', _, _, hex, _⟩ := step_write_cases hr.hi hs
  exact ⟨_, by rw [hr'], picked_sub _ _, C25_legal_frames hex⟩

/-! ## C26: deadlines -/

/-- After an ack-eliciting packet is processed an ACK is due within the largest delay that was asked for. -/
theorem C26_scheduled {h h' : Hist} {now pn lg} (hr : Reached h) (hclock : h.r.clock ≤ now)
    (hs : h.step (.packet now pn true) = .ok (h', .processed lg)) :
    ∃ t, h'.s.ackTime = some t ∧ t ≤ now + h.r.maxDelay := by
  have hi := hr.hi
  rcases step_packet_cases hs with ⟨_, _, ho⟩ | ⟨hd, s', lg', e, _, rfl⟩
  · cases ho
  · obtain ⟨s'', lg'', e', _, _, _, _, _, _, _, _, _, _, _, _, p13, _⟩ := setReceived_ok hi (now := now) (eliciting := true) hd
    rw [e] at e'; cases e'
    obtain ⟨a, ha, hc⟩ := (p13 rfl).2
    have := hi.delay
    refine ⟨a, ha, ?_⟩
    rcases hc with hc | hc | hc
    · omega
    · have := hi.due _ hc; omega
    · omega

/-- When no delay was asked for the limit is the default. -/
theorem C26_default_delay (app : Bool) : (Hist.new app).r.maxDelay = 20000000 := rfl

/-- A processed packet is in order exactly if the code takes it to be. -/
theorem next_iff {h : Hist} (hi : HI h) {pn : Nat} : pn = h.s.nextInOrder ↔ InOrder h.r.received pn := by
  unfold Recvd.nextInOrder InOrder
  have hw := hi.wf
  have hm := hi.mem
  have hne := hi.ne
  cases hr : h.s.ranges with
  | nil =>
    have : h.r.received = [] := by
      by_contra hc
      exact hne hc hr
    rw [this]
    simp
  | cons r rest =>
    rw [hr] at hw hm
    have hl : r.largest ∈ h.r.received := ((hm r.largest).mp ⟨r, List.mem_cons_self, hw.1, Nat.le_refl _⟩).1
    have hmt := ((hm r.largest).mp ⟨r, List.mem_cons_self, hw.1, Nat.le_refl _⟩).2
    have hle : ∀ j ∈ h.r.received, j ≤ r.largest := by
      intro j hj
      by_cases hj' : h.s.minTracked ≤ j
      · exact hw.head_largest ((hm j).mpr ⟨hj, hj'⟩)
      · omega
    constructor
    · rintro rfl
      exact ⟨fun j hj => by have := hle j hj; simp only; omega, .inr (by simpa using hl)⟩
    · rintro ⟨h1, h2⟩
      have := h1 _ hl
      rcases h2 with h2 | h2
      · omega
      · have := hle _ h2
        simp only
        omega

/-- It is due immediately in the handshake, when the packet is out of order (unless that is to be
ignored), and when more packets than tolerated arrived since the last ACK. -/
theorem C26_immediate {h h' : Hist} {now pn lg} (hr : Reached h)
    (hs : h.step (.packet now pn true) = .ok (h', .processed lg))
    (hc : h.s.app = false ∨ (¬ InOrder h.r.received pn ∧ h.s.ignoreOrder = false) ∨ h.r.since + 1 > h.s.tolerance) :
    h'.s.ackTime = some now := by
  have hi := hr.hi
  rcases step_packet_cases hs with ⟨_, _, ho⟩ | ⟨hd, s', lg', e, _, rfl⟩
  · cases ho
  · obtain ⟨s'', lg'', e', _, _, _, _, _, _, _, _, _, _, _, _, _, _, p15, _⟩ := setReceived_ok hi (now := now) (eliciting := true) hd
    rw [e] at e'; cases e'
    refine p15 rfl ?_
    rw [hi.count]
    rcases hc with hc | hc | hc
    · exact .inl hc
    · exact .inr (.inl ⟨fun h' => hc.1 ((next_iff hi).mp h'), hc.2⟩)
    · exact .inr (.inr hc)

/-- Once a deadline is set, later packets never move it past the time they arrive. -/
theorem C26_not_postponed {h h' : Hist} {now pn lg el t} (ht : h.s.ackTime = some t)
    (hs : h.step (.packet now pn el) = .ok (h', .processed lg)) :
    ∃ t', h'.s.ackTime = some t' ∧ (t' = t ∨ t' = now) := by
  rcases step_packet_cases hs with ⟨_, _, ho⟩ | ⟨hd, s', lg', e, _, rfl⟩
  · cases ho
  · unfold Recvd.setReceived at e
    simp only at e
    split at e
    · cases e
    · rename_i rs _
      injection e with e
      injection e with e1 e2
      have htr : ∀ x : Recvd, x.trim.ackTime = x.ackTime := by
        intro x
        unfold Recvd.trim
        split
        · split <;> rfl
        · rfl
      generalize hb : (if decide (pn ≥ h.s.nextInOrder) = true then
        { ({ h.s with ranges := rs } : Recvd).trim with largestTime := some now } else ({ h.s with ranges := rs } : Recvd).trim) = b at e1
      have hbt : b.ackTime = some t := by
        rw [← hb]
        split
        · exact (htr _).trans ht
        · exact (htr _).trans ht
      show ∃ t', s'.ackTime = some t' ∧ _
      rw [← e1]
      cases el with
      | false => exact ⟨t, hbt, .inl rfl⟩
      | true =>
        rw [if_pos rfl]
        unfold Recvd.schedule
        simp only [hbt]
        split
        · exact ⟨now, rfl, .inr rfl⟩
        · exact ⟨t, rfl, .inl rfl⟩

/-- Sending an ACK clears the schedule. -/
theorem C26_sending_clears {h h' : Hist} {now rtt remaining f} (hr : Reached h)
    (hs : h.step (.write now rtt remaining) = .ok (h', .frame f)) : h'.s.ackTime = none := by
  obtain ⟨_, e, _⟩ := step_write_cases hr.hi hs
  rw [e]

/-- No ACK is sent unless one is scheduled, and none before it is due except when the last one was at
least a round trip ago. -/
theorem C26_not_early {h h' : Hist} {now rtt remaining f} (hr : Reached h)
    (hs : h.step (.write now rtt remaining) = .ok (h', .frame f)) :
    ∃ t, h.s.ackTime = some t ∧ (t ≤ now ∨ ∃ l, h.s.lastAckTime = some l ∧ l + rtt ≤ now) := by
  have e : h.s.ackNow now rtt = true := by
    simp only [Hist.step] at hs
    rcases writeFrame_cases now rtt remaining hr.hi.wf with ⟨e, _⟩ | ⟨f', e, h1, _⟩
    · rw [e] at hs; cases hs
    · exact h1
  unfold Recvd.ackNow at e
  cases ht : h.s.ackTime with
  | none => rw [ht] at e; cases e
  | some t =>
    rw [ht] at e
    refine ⟨t, rfl, ?_⟩
    simp only [Bool.or_eq_true, decide_eq_true_eq] at e
    rcases e with e | e
    · exact .inl e
    · right
      cases hl : h.s.lastAckTime with
      | none => rw [hl] at e; cases e
      | some l => rw [hl] at e; exact ⟨l, rfl, by simpa using e⟩

/-! ## C51: an acknowledgement that is due can be sent -/

/-- If there is something tracked that the peer may not know of, a due ACK is written.
Missing for the full claim: the deadline may also be set when there is nothing left to report. -/
theorem C51_due_is_written_partial {h : Hist} (hr : Reached h) {t now : Nat} (hd : h.s.ackTime = some t) (ht : t ≤ now)
    {i : Nat} (hi : i ∈ h.r.received) (htr : h.s.minTracked ≤ i) (hn : ¬ h.r.Confirmed i)
    (rtt : Nat) {remaining : Nat} (hrem : 50 ≤ remaining) :
    ∃ h' f, h.step (.write now rtt remaining) = .ok (h', .frame f) := by
  have hI := hr.hi
  simp only [Hist.step]
  rcases writeFrame_cases now rtt remaining hI.wf with ⟨_, hc⟩ | ⟨f, e, _⟩
  · exfalso
    obtain ⟨x, hx, hxi⟩ := (hI.mem i).mpr ⟨hi, htr⟩
    rcases hc with hc | hc | hc | hc
    · unfold Recvd.ackNow at hc
      rw [hd] at hc
      simp [ht] at hc
    · unfold usefulAckLen at hc; omega
    · obtain ⟨k, hk, rs, hrs, y, hy, h1, h2⟩ := hI.needed x hx (hc x hx)
      exact hn ⟨k, hk, rs, hrs, y, hy, by omega, by omega⟩
    · exact hI.time (List.ne_nil_of_mem hx) hc
  · rw [e]
    exact ⟨_, _, rfl⟩

/-- 32 packets with gaps, acknowledged in one frame that is itself acknowledged, and then a late packet
below all of them. -/
def stuckOps : List Op :=
  (List.range 32).map (fun k => Op.packet 1000 (101 + 2 * k) true) ++ [.write 1000 0 1200, .acked 0, .packet 2000 50 true]

theorem stuck_state : ∃ h, (Hist.new true).run stuckOps = .ok h ∧ h.s.ackTime = some 2000 ∧
    h.s.ranges.filter (fun r => r.needed) = [] := by
  obtain ⟨h, e, _⟩ := (HI.new true).run stuckOps
  refine ⟨h, e, ?_⟩
  have : (match (Hist.new true).run stuckOps with
      | .ok h => decide (h.s.ackTime = some 2000 ∧ h.s.ranges.filter (fun r => r.needed) = [])
      | .error _ => false) = true := by decide +kernel
  rw [e] at this
  simpa using this

/-- The full claim is false.  After these events an ACK is due, and stays due, but no frame is ever
written however much room there is: the late packet's range was dropped at once by the range limit and
all other ranges are confirmed. -/
theorem C51_deadline_stuck : ∃ h, (Hist.new true).run stuckOps = .ok h ∧ h.s.ackTime = some 2000 ∧
    ∀ now rtt remaining, 2000 ≤ now → ∃ h', h.step (.write now rtt remaining) = .ok (h', .nothing) ∧ h'.s = h.s := by
  obtain ⟨h, e, ht, hf⟩ := stuck_state
  refine ⟨h, e, ht, fun now rtt remaining _ => ?_⟩
  have hr : Reached h := ⟨_, _, e⟩
  simp only [Hist.step]
  rcases writeFrame_cases now rtt remaining hr.hi.wf with ⟨e', _⟩ | ⟨f, _, _, _, hne, _⟩
  · rw [e']; exact ⟨_, rfl, rfl⟩
  · exfalso
    apply hne
    unfold Recvd.picked
    rw [hf, List.take_nil]

/-! ## Examples -/

/-- Packets 0, 1, 5 and 7 arrive, a frame is sent and acknowledged, then 6 arrives and an ACK is due. -/
def exOps : List Op :=
  [.packet 10 0 true, .packet 20 1 true, .packet 30 5 true, .packet 40 7 false, .write 50 0 100, .acked 0, .packet 60 6 true]

-- A state in which a frame is due; it reports 5 to 7 only, since 0 and 1 are known to the peer.
example : (match (Hist.new true).run exOps with
    | .ok h =>
      (match h.step (.write 60 1000 100) with
      | .ok (h', .frame f) => decide (f = ⟨7, 0, 2, [], none⟩ ∧ h'.s.ackTime = none ∧ h.s.ackTime = some 60 ∧
          h.s.isDuplicate 5 = true ∧ h.s.isDuplicate 4 = false)
      | _ => false)
    | .error _ => false) = true := by decide +kernel
-- The first frame of that history: 7, 5 and then 0 to 1.
example : (match (Hist.new true).run (exOps.take 4) with
    | .ok h =>
      (match h.step (.write 50 0 100) with
      | .ok (_, .frame f) => decide (f = ⟨7, 0, 0, [(0, 0), (2, 1)], none⟩)
      | _ => false)
    | .error _ => false) = true := by decide +kernel
example : decodeAck 7 0 [(0, 0), (2, 1)] = .ok [(7, 7), (5, 5), (0, 1)] := rfl
example : expand 7 0 [(0, 0), (2, 1)] = some [(7, 7), (5, 5), (0, 1)] := rfl
example : expand 7 0 [(0, 0), (3, 1)] = none ∧ decodeAck 7 0 [(0, 0), (3, 1)] = .error .frameEncoding := ⟨rfl, rfl⟩
-- In order: scheduled after the default delay; the second one at once.
example : ((Hist.new true).run [.packet 10 0 true]).map (fun h => h.s.ackTime) = .ok (some 20000010) := rfl
example : ((Hist.new true).run [.packet 10 0 true, .packet 20 1 true]).map (fun h => h.s.ackTime) = .ok (some 20) := rfl
-- The 33rd range makes the lowest be forgotten: number 51, never received, becomes a duplicate.
example : (match (Hist.new true).run stuckOps with
    | .ok h => decide (h.s.isDuplicate 51 = false ∧ h.s.isDuplicate 50 = true ∧ h.s.isDuplicate 49 = true)
    | .error _ => false) = true := by decide +kernel

end Neqo.Acks
