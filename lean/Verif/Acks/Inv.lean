import Verif.Acks.Lemmas
import Mathlib.Tactic.ByContra

/-! # What holds after every history of a packet number space -/
namespace Neqo.Acks
open Neqo.Codec (maxVarint)

structure HI (h : Hist) : Prop where
  wf : WF h.s.ranges
  mem : ∀ i, In h.s.ranges i ↔ i ∈ h.r.received ∧ h.s.minTracked ≤ i
  len : h.s.ranges.length ≤ maxTracked
  min : h.s.minTracked = 0 ∨ ∃ j ∈ h.r.received, h.s.minTracked = j + 1
  needed : ∀ x ∈ h.s.ranges, x.needed = false → ∃ k ∈ h.r.acked, ∃ rs, h.r.sent[k]? = some rs ∧
    ∃ y ∈ rs, y.smallest ≤ x.smallest ∧ x.largest ≤ y.largest
  ne : h.r.received ≠ [] → h.s.ranges ≠ []
  sentNe : h.r.sent ≠ [] → h.s.ranges ≠ []
  time : h.s.ranges ≠ [] → h.s.largestTime ≠ none
  delay : h.s.delay ≤ h.r.maxDelay
  due : ∀ t, h.s.ackTime = some t → t ≤ h.r.clock + h.r.maxDelay
  count : h.s.count = h.r.since
  nodup : h.r.received.Nodup
  sentWf : ∀ rs ∈ h.r.sent, WF rs
  sentRecv : ∀ rs ∈ h.r.sent, ∀ i, In rs i → i ∈ h.r.received
  sentCut : ∀ rs ∈ h.r.sent, ∀ y ∈ rs, y.largest < h.s.minTracked ∨ h.s.minTracked ≤ y.smallest

theorem HI.new (app) : HI (Hist.new app) := by
  refine ⟨trivial, ?_, Nat.zero_le _, .inl rfl, ?_, ?_, ?_, ?_, Nat.le_refl _, ?_, rfl, List.nodup_nil, ?_, ?_, ?_⟩
  · intro i
    constructor
    · exact fun h => (In_nil h).elim
    · exact fun h => absurd h.1 List.not_mem_nil
  · intro x hx; cases hx
  · exact fun h => absurd rfl h
  · exact fun h => absurd rfl h
  · exact fun h => absurd rfl h
  · intro t ht; cases ht
  · intro x hx; cases hx
  · intro x hx; cases hx
  · intro x hx; cases hx

theorem dup_iff {h : Hist} (hi : HI h) (pn : Nat) :
    h.s.isDuplicate pn = true ↔ pn < h.s.minTracked ∨ pn ∈ h.r.received := by
  unfold Recvd.isDuplicate
  by_cases hm : pn < h.s.minTracked
  · rw [if_pos hm]; simp [hm]
  · rw [if_neg hm, isDup_iff hi.wf, hi.mem]
    constructor
    · exact fun h => .inr h.1
    · rintro (h | h)
      · exact absurd h hm
      · exact ⟨h, by omega⟩

theorem schedule_eq (s : Recvd) (now next pn : Nat) : ∃ a, s.schedule now next pn = { s with count := s.count + 1, ackTime := some a } ∧
    (a = now ∨ s.ackTime = some a ∨ a = now + s.delay) := by
  unfold Recvd.schedule
  simp only
  split
  · exact ⟨now, rfl, .inl rfl⟩
  · split
    · rename_i t ht
      exact ⟨t, by rw [← ht], .inr (.inl ht)⟩
    · exact ⟨_, rfl, .inr (.inr rfl)⟩

/-- What dropping the lowest range does. -/
theorem trim_cases (s : Recvd) (hw : WF s.ranges) (hl : s.ranges.length ≤ maxTracked + 1) :
    (s.trim = s ∧ s.ranges.length ≤ maxTracked) ∨
    ∃ x, x ∈ s.ranges ∧ s.ranges.length = maxTracked + 1 ∧
      s.trim = { s with ranges := s.ranges.dropLast, minTracked := x.largest + 1 } ∧
      (∀ i, In s.ranges.dropLast i ↔ In s.ranges i ∧ x.largest + 1 ≤ i) ∧ ¬ In s.ranges.dropLast (x.largest + 1) := by
  unfold Recvd.trim
  by_cases h : s.ranges.length > maxTracked
  · rw [if_pos h]
    have hne : s.ranges ≠ [] := by intro h'; rw [h'] at h; simp at h
    rw [List.getLast?_eq_some_getLast hne]
    refine .inr ⟨s.ranges.getLast hne, List.getLast_mem hne, by omega, rfl, ?_⟩
    refine And.symm ?_
    have heq := List.dropLast_concat_getLast hne
    generalize s.ranges.getLast hne = x at heq ⊢
    generalize s.ranges.dropLast = d at heq ⊢
    rw [← heq] at hw
    have hx : x.smallest ≤ x.largest := hw.le (List.mem_append_right _ List.mem_cons_self)
    refine ⟨?_, ?_⟩
    · rintro ⟨y, hy, hi⟩
      have := hw.append hy (List.mem_cons_self (a := x) (l := []))
      omega
    intro i
    rw [← heq]
    constructor
    · rintro ⟨y, hy, hi⟩
      have := hw.append hy (List.mem_cons_self (a := x) (l := []))
      exact ⟨⟨y, List.mem_append_left _ hy, hi⟩, by omega⟩
    · rintro ⟨⟨y, hy, hi⟩, hxi⟩
      rcases List.mem_append.mp hy with hy | hy
      · exact ⟨y, hy, hi⟩
      · rcases List.mem_singleton.mp hy with rfl
        omega
  · rw [if_neg h]; exact .inl ⟨rfl, by omega⟩

/-- What processing a new packet does. -/
theorem setReceived_ok {h : Hist} (hi : HI h) {now pn eliciting} (hd : h.s.isDuplicate pn = false) :
    ∃ s' largest, h.s.setReceived now pn eliciting = .ok (s', largest) ∧
      WF s'.ranges ∧ s'.ranges.length ≤ maxTracked ∧ s'.ranges ≠ [] ∧
      (∀ i, In s'.ranges i ↔ (In h.s.ranges i ∨ i = pn) ∧ s'.minTracked ≤ i) ∧
      (s'.minTracked = h.s.minTracked ∨ (h.s.minTracked < s'.minTracked ∧ h.s.ranges.length = maxTracked ∧
        s'.ranges.length = maxTracked ∧ ¬ In s'.ranges s'.minTracked ∧
        ∃ j, (In h.s.ranges j ∨ j = pn) ∧ s'.minTracked = j + 1)) ∧
      (∀ x ∈ s'.ranges, x.needed = false → x ∈ h.s.ranges) ∧
      (s'.largestTime = h.s.largestTime ∨ s'.largestTime = some now) ∧ (h.s.ranges = [] → s'.largestTime = some now) ∧
      s'.delay = h.s.delay ∧ s'.app = h.s.app ∧ s'.tolerance = h.s.tolerance ∧ s'.ignoreOrder = h.s.ignoreOrder ∧
      (eliciting = true → s'.count = h.s.count + 1 ∧ ∃ a, s'.ackTime = some a ∧ (a = now ∨ h.s.ackTime = some a ∨ a = now + h.s.delay)) ∧
      (eliciting = false → s'.count = h.s.count ∧ s'.ackTime = h.s.ackTime) ∧
      (eliciting = true → (h.s.app = false ∨ (pn ≠ h.s.nextInOrder ∧ h.s.ignoreOrder = false) ∨ h.s.count + 1 > h.s.tolerance) →
        s'.ackTime = some now) ∧
      (pn < s'.minTracked ∨ ∃ x ∈ s'.ranges, x.needed = true ∧ x.smallest ≤ pn ∧ pn ≤ x.largest) := by
  have hmin : h.s.minTracked ≤ pn := by
    have := mt (dup_iff hi pn).mpr (by rw [hd]; simp)
    omega
  have hnin : ¬ In h.s.ranges pn := by
    intro hc
    have := (dup_iff hi pn).mpr (.inr ((hi.mem pn).mp hc).1)
    rw [hd] at this; cases this
  obtain ⟨rs, e, ha⟩ := addPn_ok hi.wf hnin
  unfold Recvd.setReceived
  simp only [e]
  generalize hg : ({ h.s with ranges := rs } : Recvd) = s1
  have hs1 : s1.ranges = rs := by rw [← hg]
  have hl1 : s1.ranges.length ≤ maxTracked + 1 := by rw [hs1]; have := ha.len; have := hi.len; omega
  have hge : ∀ i, In rs i → h.s.minTracked ≤ i := by
    intro i h'
    rcases (ha.mem i).mp h' with h' | h'
    · exact ((hi.mem i).mp h').2
    · omega
  have hrne : rs ≠ [] := by
    obtain ⟨x, hx, _⟩ := ha.new
    exact List.ne_nil_of_mem hx
  -- facts about the trimmed state
  have ht : WF s1.trim.ranges ∧ s1.trim.ranges.length ≤ maxTracked ∧ s1.trim.ranges ≠ [] ∧
      (∀ i, In s1.trim.ranges i ↔ (In h.s.ranges i ∨ i = pn) ∧ s1.trim.minTracked ≤ i) ∧
      (s1.trim.minTracked = h.s.minTracked ∨ (h.s.minTracked < s1.trim.minTracked ∧ h.s.ranges.length = maxTracked ∧
        s1.trim.ranges.length = maxTracked ∧ ¬ In s1.trim.ranges s1.trim.minTracked ∧
        ∃ j, (In h.s.ranges j ∨ j = pn) ∧ s1.trim.minTracked = j + 1)) ∧
      (∀ x ∈ s1.trim.ranges, x.needed = false → x ∈ h.s.ranges) ∧
      s1.trim.largestTime = h.s.largestTime ∧ s1.trim.delay = h.s.delay ∧ s1.trim.app = h.s.app ∧
      s1.trim.tolerance = h.s.tolerance ∧ s1.trim.ignoreOrder = h.s.ignoreOrder ∧ s1.trim.count = h.s.count ∧
      s1.trim.ackTime = h.s.ackTime ∧
      (pn < s1.trim.minTracked ∨ ∃ x ∈ s1.trim.ranges, x.needed = true ∧ x.smallest ≤ pn ∧ pn ≤ x.largest) := by
    rcases trim_cases s1 (by rw [hs1]; exact ha.wf) hl1 with ⟨et, hl⟩ | ⟨x, hx, hl, et, hin, hgap⟩
    · rw [et]
      have hmt : s1.minTracked = h.s.minTracked := by rw [← hg]
      refine ⟨by rw [hs1]; exact ha.wf, hl, by rw [hs1]; exact hrne, ?_, .inl hmt, ?_, ?_⟩
      · intro i
        rw [hs1, ha.mem, hmt]
        constructor
        · exact fun h' => ⟨h', hge i ((ha.mem i).mpr h')⟩
        · exact fun h' => h'.1
      · rw [hs1]; exact ha.old
      · rw [← hg]; exact ⟨rfl, rfl, rfl, rfl, rfl, rfl, rfl, .inr ha.new⟩
    · rw [et]
      have hlr : rs.length = maxTracked + 1 := by rw [← hs1]; exact hl
      refine ⟨?_, ?_, ?_, ?_, .inr ⟨?_, ?_, by simp only; rw [List.length_dropLast]; omega, hgap, x.largest, ?_, rfl⟩, ?_, ?_⟩
      · simp only; rw [hs1]; exact ha.wf.sublist (List.dropLast_sublist _)
      · simp only; rw [List.length_dropLast]; omega
      · simp only
        intro h'
        have := congrArg List.length h'
        rw [List.length_dropLast, hl] at this
        simp [maxTracked] at this
      · intro i
        simp only
        rw [hin, hs1, ha.mem]
      · have hx' : In rs x.largest := ⟨x, by rw [← hs1]; exact hx, ha.wf.le (by rw [← hs1]; exact hx), Nat.le_refl _⟩
        have := hge _ hx'
        show _ < x.largest + 1
        omega
      · have := ha.len; have := hi.len; omega
      · have hx' : In rs x.largest := ⟨x, by rw [← hs1]; exact hx, ha.wf.le (by rw [← hs1]; exact hx), Nat.le_refl _⟩
        exact (ha.mem _).mp hx'
      · simp only
        intro y hy
        rw [hs1] at hy
        exact ha.old y (List.dropLast_subset _ hy)
      · rw [← hg]
        refine ⟨rfl, rfl, rfl, rfl, rfl, rfl, rfl, ?_⟩
        simp only
        obtain ⟨y, hy, hn, hy1⟩ := ha.new
        rw [hs1] at hx hin
        have hne : rs ≠ [] := hrne
        have heq := List.dropLast_concat_getLast hne
        rw [← heq] at hy
        rcases List.mem_append.mp hy with hy | hy
        · exact .inr ⟨y, hy, hn, hy1⟩
        · -- the new packet is in the dropped range
          left
          rcases List.mem_singleton.mp hy with rfl
          by_contra hc
          have hpn : In rs pn := (ha.mem pn).mpr (.inr rfl)
          have hd : In rs.dropLast pn := (hin pn).mpr ⟨hpn, by omega⟩
          obtain ⟨z, hz, hz1⟩ := hd
          have hw := ha.wf
          rw [← heq] at hw
          have := hw.append hz (List.mem_cons_self (l := []))
          omega
  obtain ⟨t1, t2, t3, t4, t5, t6, t7, t8, t9, t10, t11, t12, t13, t14⟩ := ht
  generalize s1.trim = s2 at *
  -- record the time
  have hlt : h.s.ranges = [] → decide (pn ≥ h.s.nextInOrder) = true := by
    intro h'; unfold Recvd.nextInOrder; rw [h']; simp
  have hu : ∃ s3 : Recvd, (if decide (pn ≥ h.s.nextInOrder) = true then { s2 with largestTime := some now } else s2) = s3 ∧
      s3.ranges = s2.ranges ∧ s3.minTracked = s2.minTracked ∧ (s3.largestTime = h.s.largestTime ∨ s3.largestTime = some now) ∧
      (h.s.ranges = [] → s3.largestTime = some now) ∧
      s3.delay = s2.delay ∧ s3.app = s2.app ∧ s3.tolerance = s2.tolerance ∧ s3.ignoreOrder = s2.ignoreOrder ∧
      s3.count = s2.count ∧ s3.ackTime = s2.ackTime := by
    refine ⟨_, rfl, ?_⟩
    by_cases hc : decide (pn ≥ h.s.nextInOrder) = true
    · rw [if_pos hc]; exact ⟨rfl, rfl, .inr rfl, fun _ => rfl, rfl, rfl, rfl, rfl, rfl, rfl⟩
    · rw [if_neg hc]; exact ⟨rfl, rfl, .inl t7, fun h' => absurd (hlt h') hc, rfl, rfl, rfl, rfl, rfl, rfl⟩
  obtain ⟨s3, hu0, u1, u2, u3, u4, u5, u6, u7, u8, u9, u10⟩ := hu
  rw [hu0]
  cases eliciting with
  | false =>
    refine ⟨s3, _, rfl, ?_⟩
    rw [u1, u2]
    exact ⟨t1, t2, t3, t4, t5, t6, u3, u4, u5.trans t8, u6.trans t9, u7.trans t10, u8.trans t11,
      (fun h' => by cases h'), fun _ => ⟨u9.trans t12, u10.trans t13⟩, (fun h' => by cases h'), t14⟩
  | true =>
    refine ⟨_, _, rfl, ?_⟩
    simp only [if_true]
    obtain ⟨a, ea, hc⟩ := schedule_eq s3 now h.s.nextInOrder pn
    have himm : (h.s.app = false ∨ (pn ≠ h.s.nextInOrder ∧ h.s.ignoreOrder = false) ∨ h.s.count + 1 > h.s.tolerance) →
        (s3.schedule now h.s.nextInOrder pn).ackTime = some now := by
      intro hc
      unfold Recvd.schedule
      simp only
      rw [if_pos]
      unfold Recvd.immediate
      simp only [u6, t9, u8, t11, u7, t10, u9, t12, Bool.or_eq_true, Bool.and_eq_true, decide_eq_true_eq, Bool.not_eq_true']
      rcases hc with hc | hc | hc
      · exact .inl (.inl hc)
      · exact .inl (.inr hc)
      · exact .inr hc
    rw [ea] at himm ⊢
    simp only at himm ⊢
    rw [u1, u2]
    refine ⟨t1, t2, t3, t4, t5, t6, u3, u4, u5.trans t8, u6.trans t9, u7.trans t10, u8.trans t11,
      fun _ => ⟨by rw [u9, t12], a, rfl, ?_⟩, (fun h' => by cases h'), fun _ h' => himm h', t14⟩
    rw [← t13, ← u10, ← t8, ← u5]
    exact hc

theorem HI.step {h : Hist} (hi : HI h) (op : Op) : ∃ h' o, h.step op = .ok (h', o) ∧ HI h' := by
  cases op with
  | packet now pn el =>
    cases hd : h.s.isDuplicate pn with
    | true => exact ⟨h, .duplicate, by simp [Hist.step, hd], hi⟩
    | false =>
      obtain ⟨s', lg, e, p1, p2, p3, p4, p5, p6, p7, p8, p9, p10, p11, p12, p13, p14, p15, p16⟩ :=
        setReceived_ok hi (now := now) (eliciting := el) hd
      have hnd := mt (dup_iff hi pn).mpr (by rw [hd]; simp)
      refine ⟨_, _, by simp only [Hist.step, hd, e]; rfl, ?_⟩
      refine ⟨p1, ?_, p2, ?_, ?_, fun _ => p3, fun _ => p3, ?_, by rw [p9]; exact hi.delay, ?_, ?_,
        List.nodup_cons.mpr ⟨fun hc => hnd (.inr hc), hi.nodup⟩, hi.sentWf,
        fun rs hrs i h' => List.mem_cons_of_mem _ (hi.sentRecv rs hrs i h'), ?_⟩
      · intro i
        rw [p4, hi.mem, List.mem_cons]
        have : h.s.minTracked ≤ s'.minTracked := by rcases p5 with h | h <;> omega
        constructor
        · rintro ⟨h1 | h1, h2⟩
          · exact ⟨.inr h1.1, h2⟩
          · exact ⟨.inl h1, h2⟩
        · rintro ⟨h1 | h1, h2⟩
          · exact ⟨.inr h1, h2⟩
          · exact ⟨.inl ⟨h1, Nat.le_trans this h2⟩, h2⟩
      · rcases p5 with h' | ⟨_, _, _, _, j, hj, h'⟩
        · rcases hi.min with hm | ⟨j, hj, hm⟩
          · exact .inl (h'.trans hm)
          · exact .inr ⟨j, List.mem_cons_of_mem _ hj, h'.trans hm⟩
        · refine .inr ⟨j, ?_, h'⟩
          rcases hj with hj | hj
          · exact List.mem_cons_of_mem _ ((hi.mem j).mp hj).1
          · rw [hj]; exact List.mem_cons_self
      · intro x hx hn
        exact hi.needed x (p6 x hx hn) hn
      · intro _
        by_cases hr : h.s.ranges = []
        · rw [p8 hr]; simp
        · rcases p7 with p7 | p7
          · rw [p7]; exact hi.time hr
          · rw [p7]; simp
      · intro t ht
        show t ≤ max h.r.clock now + h.r.maxDelay
        have hdl := hi.delay
        cases el with
        | false =>
          rw [(p14 rfl).2] at ht
          have := hi.due t ht
          omega
        | true =>
          obtain ⟨a, ha, hc⟩ := (p13 rfl).2
          simp only at ht
          rw [ha] at ht
          cases ht
          rcases hc with hc | hc | hc
          · omega
          · have := hi.due _ hc; omega
          · omega
      · show s'.count = _
        cases el with
        | false => rw [(p14 rfl).1]; exact hi.count
        | true => rw [(p13 rfl).1, hi.count]; rfl
      · intro rs hrs y hy
        show y.largest < s'.minTracked ∨ s'.minTracked ≤ y.smallest
        rcases p5 with h' | ⟨hlt, _, _, hgap, _⟩
        · rw [h']; exact hi.sentCut rs hrs y hy
        · rcases hi.sentCut rs hrs y hy with hc | hc
          · left; omega
          · by_contra hcon
            refine hgap ((p4 _).mpr ⟨.inl ((hi.mem _).mpr ⟨?_, by omega⟩), Nat.le_refl _⟩)
            exact hi.sentRecv rs hrs _ ⟨y, hy, by omega, by omega⟩
  | immediate t =>
    refine ⟨_, _, rfl, ⟨hi.wf, hi.mem, hi.len, hi.min, hi.needed, hi.ne, hi.sentNe, hi.time, hi.delay, ?_, hi.count, hi.nodup, hi.sentWf, hi.sentRecv, hi.sentCut⟩⟩
    intro t' ht'
    cases ht'
    show t ≤ max h.r.clock t + h.r.maxDelay
    omega
  | ackFreq q tol d ig =>
    refine ⟨_, _, rfl, ?_⟩
    unfold Recvd.ackFreq
    have hd := hi.delay
    split
    · refine ⟨hi.wf, hi.mem, hi.len, hi.min, hi.needed, hi.ne, hi.sentNe, hi.time, ?_, ?_, hi.count, hi.nodup, hi.sentWf, hi.sentRecv, hi.sentCut⟩
      · show d ≤ max h.r.maxDelay d; omega
      · intro t ht
        have := hi.due t ht
        show t ≤ h.r.clock + max h.r.maxDelay d
        omega
    · refine ⟨hi.wf, hi.mem, hi.len, hi.min, hi.needed, hi.ne, hi.sentNe, hi.time, ?_, ?_, hi.count, hi.nodup, hi.sentWf, hi.sentRecv, hi.sentCut⟩
      · show h.s.delay ≤ max h.r.maxDelay d; omega
      · intro t ht
        have := hi.due t ht
        show t ≤ h.r.clock + max h.r.maxDelay d
        omega
  | ecn c => exact ⟨_, _, rfl, ⟨hi.wf, hi.mem, hi.len, hi.min, hi.needed, hi.ne, hi.sentNe, hi.time, hi.delay, hi.due, hi.count, hi.nodup, hi.sentWf, hi.sentRecv, hi.sentCut⟩⟩
  | write now rtt remaining =>
    rcases writeFrame_cases now rtt remaining hi.wf with ⟨e, _⟩ | ⟨f, e, _, _, hne, _, _, _⟩
    · refine ⟨_, _, by simp only [Hist.step, e]; rfl, ?_⟩
      refine ⟨hi.wf, hi.mem, hi.len, hi.min, hi.needed, hi.ne, hi.sentNe, hi.time, hi.delay, ?_, hi.count, hi.nodup, hi.sentWf, hi.sentRecv, hi.sentCut⟩
      intro t ht
      have := hi.due t ht
      show t ≤ max h.r.clock now + h.r.maxDelay
      omega
    · refine ⟨_, _, by simp only [Hist.step, e]; rfl, ?_⟩
      have hrn : h.s.ranges ≠ [] := by
        intro h'
        apply hne
        have := picked_sub h.s remaining
        rw [h'] at this
        exact List.eq_nil_of_sublist_nil this
      refine ⟨hi.wf, hi.mem, hi.len, hi.min, ?_, hi.ne, fun _ => hrn, hi.time, hi.delay, (fun t ht => by cases ht), rfl, hi.nodup, ?_, ?_, ?_⟩
      · intro x hx hn
        obtain ⟨k, hk, rs, hrs, h'⟩ := hi.needed x hx hn
        exact ⟨k, hk, rs, List.getElem?_append_left (List.getElem?_eq_some_iff.mp hrs).1 ▸ hrs, h'⟩
      · intro rs hrs
        rcases List.mem_append.mp hrs with hrs | hrs
        · exact hi.sentWf rs hrs
        · rcases List.mem_singleton.mp hrs with rfl
          exact hi.wf.sublist (picked_sub _ _)
      · intro rs hrs i hin
        rcases List.mem_append.mp hrs with hrs | hrs
        · exact hi.sentRecv rs hrs i hin
        · rcases List.mem_singleton.mp hrs with rfl
          obtain ⟨x, hx, hxi⟩ := hin
          exact ((hi.mem i).mp ⟨x, (picked_sub _ _).subset hx, hxi⟩).1
      · intro rs hrs y hy
        rcases List.mem_append.mp hrs with hrs | hrs
        · exact hi.sentCut rs hrs y hy
        · rcases List.mem_singleton.mp hrs with rfl
          have hyr := (picked_sub _ _).subset hy
          exact .inr ((hi.mem _).mp ⟨y, hyr, Nat.le_refl _, hi.wf.le hyr⟩).2
  | acked k =>
    simp only [Hist.step]
    cases hk : h.r.sent[k]? with
    | none => exact ⟨_, _, rfl, hi⟩
    | some rs =>
      have hmem : rs ∈ h.r.sent := List.mem_of_getElem? hk
      have hne := hi.sentNe (List.ne_nil_of_mem hmem)
      have he : h.s.acknowledged rs = .ok { h.s with ranges := ackLoop h.s.ranges rs } := by
        unfold Recvd.acknowledged
        split
        · exact absurd ‹_› hne
        · rfl
      have hr := ackLoop_rel h.s.ranges rs
      have hne' : ackLoop h.s.ranges rs ≠ [] := by
        intro h'
        have := hr.length
        rw [h'] at this
        exact hne (List.length_eq_zero_iff.mp this.symm)
      refine ⟨_, _, by simp only [he]; rfl, ?_⟩
      refine ⟨hr.wf hi.wf, fun i => (hr.in_iff i).trans (hi.mem i), by simp only; rw [hr.length]; exact hi.len, hi.min, ?_,
        fun _ => hne', fun _ => hne', fun _ => hi.time hne, hi.delay, hi.due, hi.count, hi.nodup, hi.sentWf, hi.sentRecv, hi.sentCut⟩
      intro y hy hn
      obtain ⟨x, hx, e1, e2, e3⟩ := hr.back y hy
      rw [e1, e2]
      rcases e3 with e3 | ⟨_, a, ha, e3⟩
      · obtain ⟨k', hk', rs', h'⟩ := hi.needed x hx (by rw [← e3]; exact hn)
        exact ⟨k', List.mem_cons_of_mem _ hk', rs', h'⟩
      · exact ⟨k, List.mem_cons_self, rs, hk, a, ha, e3⟩

theorem HI.run {h : Hist} (hi : HI h) : ∀ ops, ∃ h', h.run ops = .ok h' ∧ HI h'
  | [] => ⟨h, rfl, hi⟩
  | op :: ops => by
    obtain ⟨h1, o, e, hi1⟩ := hi.step op
    obtain ⟨h2, e2, hi2⟩ := HI.run hi1 ops
    exact ⟨h2, by simp only [Hist.run, e]; exact e2, hi2⟩

theorem Reached.hi {h : Hist} (hr : Reached h) : HI h := by
  obtain ⟨app, ops, e⟩ := hr
  obtain ⟨h', e', hi⟩ := (HI.new app).run ops
  rw [e] at e'
  cases e'
  exact hi

end Neqo.Acks
