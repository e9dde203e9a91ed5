import Verif.Recovery.Spec

/-! # Lists of tracked packets -/
namespace Neqo.Rec

/-- The sum of a measure over a list of packets. -/
def total (f : Pkt → Nat) (ps : List Pkt) : Nat := (ps.map f).sum

@[simp] theorem total_nil (f) : total f [] = 0 := rfl
@[simp] theorem total_cons (f p ps) : total f (p :: ps) = f p + total f ps := rfl

theorem total_append (f a b) : total f (a ++ b) = total f a + total f b := by
  induction a with
  | nil => simp
  | cons p a ih => rw [List.cons_append, total_cons, total_cons, ih]; omega

theorem total_reverse (f a) : total f a.reverse = total f a := by
  induction a with
  | nil => rfl
  | cons p a ih => rw [List.reverse_cons, total_append, total_cons, ih, total_cons, total_nil]; omega

theorem total_split (f : Pkt → Nat) (q : Pkt → Bool) (ps) :
    total f ps = total f (ps.filter q) + total f (ps.filter fun p => !q p) := by
  induction ps with
  | nil => rfl
  | cons p ps ih =>
    cases h : q p
    · rw [List.filter_cons_of_neg (by simp [h]), List.filter_cons_of_pos (by simp [h]), total_cons, total_cons, ih]; omega
    · rw [List.filter_cons_of_pos (by simp [h]), List.filter_cons_of_neg (by simp [h]), total_cons, total_cons, ih]; omega

theorem total_le_filter (f : Pkt → Nat) (q : Pkt → Bool) (ps) : total f (ps.filter q) ≤ total f ps := by
  have := total_split f q ps; omega

theorem total_congr {f g : Pkt → Nat} {ps : List Pkt} (h : ∀ p ∈ ps, f p = g p) : total f ps = total g ps := by
  induction ps with
  | nil => rfl
  | cons p ps ih =>
    rw [total_cons, total_cons, h p List.mem_cons_self, ih (fun q hq => h q (List.mem_cons_of_mem _ hq))]

theorem total_map (f : Pkt → Nat) (g : Pkt → Pkt) (ps) : total f (ps.map g) = total (fun p => f (g p)) ps := by
  induction ps with
  | nil => rfl
  | cons p ps ih => rw [List.map_cons, total_cons, total_cons, ih]

theorem total_zero {f : Pkt → Nat} {ps : List Pkt} (h : ∀ p ∈ ps, f p = 0) : total f ps = 0 := by
  induction ps with
  | nil => rfl
  | cons p ps ih => rw [total_cons, h p List.mem_cons_self, ih (fun q hq => h q (List.mem_cons_of_mem _ hq))]

theorem total_mem_le {f : Pkt → Nat} {ps : List Pkt} {p : Pkt} (h : p ∈ ps) : f p ≤ total f ps := by
  induction ps with
  | nil => cases h
  | cons q ps ih =>
    rw [total_cons]
    rcases List.mem_cons.mp h with rfl | h
    · omega
    · have := ih h; omega

theorem countEliciting_eq (ps) : countEliciting ps = total (fun p => if p.eliciting then 1 else 0) ps := by
  induction ps with
  | nil => rfl
  | cons p ps ih =>
    unfold countEliciting at *
    cases h : p.eliciting
    · rw [List.filter_cons_of_neg (by simp [h]), total_cons, ih]; simp [h]
    · rw [List.filter_cons_of_pos (by simp [h]), List.length_cons, total_cons, ih]; simp [h]; omega

/-! ## Prefixes of sorted lists -/

/-- On a list where a condition, once false, stays false, the prefix that satisfies it is all that does. -/
theorem takeWhile_eq_filter {q : Pkt → Bool} : ∀ {ps : List Pkt}, ps.Pairwise (fun a b => q b = true → q a = true) →
    ps.takeWhile q = ps.filter q ∧ ps.dropWhile q = ps.filter (fun p => !q p) := by
  intro ps
  induction ps with
  | nil => intro _; exact ⟨rfl, rfl⟩
  | cons p ps ih =>
    intro h
    obtain ⟨h1, h2⟩ := List.pairwise_cons.mp h
    obtain ⟨i1, i2⟩ := ih h2
    cases hq : q p
    · have hno : ∀ b ∈ ps, q b = false := by
        intro b hb
        cases hb' : q b with
        | false => rfl
        | true => rw [h1 b hb hb'] at hq; cases hq
      rw [List.takeWhile_cons_of_neg (by simp [hq]), List.filter_cons_of_neg (by simp [hq]), List.dropWhile_cons_of_neg (by simp [hq]),
        List.filter_cons_of_pos (by simp [hq])]
      constructor
      · symm; rw [List.filter_eq_nil_iff]; intro b hb; simp [hno b hb]
      · congr 1; symm; rw [List.filter_eq_self]; intro b hb; simp [hno b hb]
    · rw [List.takeWhile_cons_of_pos hq, List.filter_cons_of_pos hq, List.dropWhile_cons_of_pos hq,
        List.filter_cons_of_neg (by simp [hq]), i1, i2]
      exact ⟨rfl, rfl⟩

/-- Packets are in the order of their numbers. -/
def Sorted (ps : List Pkt) : Prop := ps.Pairwise fun a b => a.pn < b.pn

theorem Sorted.filter {ps} (h : Sorted ps) (q) : Sorted (ps.filter q) := List.Pairwise.filter q h

theorem pn_prefix {ps} (h : Sorted ps) (n : Nat) : ps.Pairwise (fun a b => decide (b.pn < n) = true → decide (a.pn < n) = true) :=
  List.Pairwise.imp (by intro a b hab hb; simp only [decide_eq_true_eq] at *; omega) h

theorem pn_prefix' {ps} (h : Sorted ps) (n : Nat) : ps.Pairwise (fun a b => decide (b.pn ≤ n) = true → decide (a.pn ≤ n) = true) :=
  List.Pairwise.imp (by intro a b hab hb; simp only [decide_eq_true_eq] at *; omega) h

/-- A number is between the bounds. -/
def within (lo hi : Nat) (p : Pkt) : Bool := decide (lo ≤ p.pn) && decide (p.pn ≤ hi)

theorem takeRange_ok {ps : List Pkt} (h : Sorted ps) {lo hi : Nat} (hle : lo ≤ hi) :
    takeRange ps lo hi = .ok (ps.filter (fun p => !within lo hi p), (ps.filter (within lo hi)).reverse) := by
  obtain ⟨a1, a2⟩ := takeWhile_eq_filter (pn_prefix h lo)
  obtain ⟨b1, b2⟩ := takeWhile_eq_filter (pn_prefix' h hi)
  have hs : ps.take (ps.takeWhile fun p => decide (p.pn < lo)).length = ps.filter (fun p => decide (p.pn < lo)) := by
    rw [← a1]
    exact (List.prefix_iff_eq_take.mp (List.takeWhile_prefix _)).symm
  have htake : ps.take (ps.takeWhile fun p => decide (p.pn ≤ hi)).length = ps.filter (fun p => decide (p.pn ≤ hi)) := by
    rw [← b1]
    exact (List.prefix_iff_eq_take.mp (List.takeWhile_prefix _)).symm
  have hdrop : ps.drop (ps.takeWhile fun p => decide (p.pn ≤ hi)).length = ps.filter (fun p => !decide (p.pn ≤ hi)) := by
    rw [← b2]
    have := List.takeWhile_append_dropWhile (p := fun p : Pkt => decide (p.pn ≤ hi)) (l := ps)
    conv => lhs; arg 2; rw [← this]
    exact List.drop_left
  have hf : ps.filter (fun p => decide (p.pn < lo)) = (ps.filter (fun p => decide (p.pn ≤ hi))).filter (fun p => decide (p.pn < lo)) := by
    rw [List.filter_filter]
    apply List.filter_congr
    intro p _
    by_cases h1 : p.pn < lo <;> by_cases h2 : p.pn ≤ hi <;> simp [h1, h2]
    omega
  have hmid : ((ps.filter (fun p => decide (p.pn ≤ hi))).drop (ps.takeWhile fun p => decide (p.pn < lo)).length) = ps.filter (within lo hi) := by
    rw [a1, hf]
    have h' := h.filter (fun p => decide (p.pn ≤ hi))
    obtain ⟨c1, c2⟩ := takeWhile_eq_filter (pn_prefix h' lo)
    rw [← c1]
    have := List.takeWhile_append_dropWhile (p := fun p : Pkt => decide (p.pn < lo)) (l := ps.filter (fun p => decide (p.pn ≤ hi)))
    conv => lhs; arg 2; rw [← this]
    rw [List.drop_left, c2, List.filter_filter]
    apply List.filter_congr
    intro p _
    unfold within
    by_cases h1 : p.pn < lo <;> by_cases h2 : p.pn ≤ hi <;> simp [h1, h2]
    · omega
  have hkeep : ps.filter (fun p => decide (p.pn < lo)) ++ ps.filter (fun p => !decide (p.pn ≤ hi)) = ps.filter (fun p => !within lo hi p) := by
    rw [← a1, ← b2]
    clear a1 a2 b1 b2 hs htake hdrop hf hmid
    induction ps with
    | nil => rfl
    | cons p ps ih =>
      obtain ⟨h1, h2⟩ := List.pairwise_cons.mp h
      by_cases hlo : p.pn < lo
      · have hhi : p.pn ≤ hi := by omega
        rw [List.takeWhile_cons_of_pos (by simpa using hlo), List.dropWhile_cons_of_pos (by simpa using hhi), List.cons_append, ih h2,
          List.filter_cons_of_pos]
        unfold within
        have : ¬ lo ≤ p.pn := by omega
        simp [this]
      · rw [List.takeWhile_cons_of_neg (by simpa using hlo), List.nil_append]
        have hb : (p :: ps).dropWhile (fun p => decide (p.pn ≤ hi)) = (p :: ps).filter (fun p => !decide (p.pn ≤ hi)) :=
          (takeWhile_eq_filter (pn_prefix' h hi)).2
        rw [hb]
        apply List.filter_congr
        intro q hq
        have : lo ≤ q.pn := by
          rcases List.mem_cons.mp hq with rfl | hq
          · omega
          · have := h1 q hq; omega
        unfold within
        simp [this]
  unfold takeRange
  simp only
  rw [hs, htake, hdrop, hmid, hkeep]
  have hlen : (ps.takeWhile fun p => decide (p.pn < lo)).length ≤ (ps.takeWhile fun p => decide (p.pn ≤ hi)).length := by
    rw [a1, b1, hf]; exact List.length_filter_le _ _
  split
  · rename_i heq
    have hnil : ps.filter (within lo hi) = [] := by
      rw [← hmid, heq, b1]; exact List.drop_length
    rw [hnil]
    have : ps.filter (fun p => !within lo hi p) = ps := by
      rw [List.filter_eq_self]
      intro p hp
      have := List.filter_eq_nil_iff.mp hnil p hp
      simpa using this
    rw [this]; rfl
  · rw [if_neg (by omega)]

/-- The decision procedure for `InRanges`. -/
def inRanges (rs : List (Nat × Nat)) (p : Pkt) : Bool := rs.any fun r => within r.1 r.2 p

theorem inRanges_iff {rs p} : inRanges rs p = true ↔ InRanges rs p.pn := by
  unfold inRanges InRanges within
  simp only [List.any_eq_true, Bool.and_eq_true, decide_eq_true_eq]

theorem Descending.lt {rs : List (Nat × Nat)} : ∀ {prev : Nat}, Descending (some prev) rs → ∀ r ∈ rs, r.2 < prev := by
  induction rs with
  | nil => intro _ _ r hr; cases hr
  | cons x rs ih =>
    intro prev h r hr
    obtain ⟨h1, h2, h3⟩ := h
    rcases List.mem_cons.mp hr with rfl | hr
    · exact h1 _ rfl
    · have := ih h3 r hr; have := h1 _ rfl; omega

/-- Taking ranges out of a sorted list takes exactly the packets in them, the largest number first. -/
theorem takeRanges_ok {rs : List (Nat × Nat)} : ∀ {ps : List Pkt} {prev : Option Nat}, Sorted ps → Descending prev rs →
    takeRanges ps prev rs = .ok (ps.filter (fun p => !inRanges rs p), (ps.filter (inRanges rs)).reverse) := by
  induction rs with
  | nil =>
    intro ps prev _ _
    unfold takeRanges
    have h1 : ps.filter (fun p => !inRanges [] p) = ps := by rw [List.filter_eq_self]; intro p _; rfl
    have h2 : ps.filter (inRanges []) = [] := by rw [List.filter_eq_nil_iff]; intro p _; simp [inRanges]
    rw [h1, h2]; rfl
  | cons x rs ih =>
    obtain ⟨lo, hi⟩ := x
    intro ps prev h hd
    obtain ⟨h1, h2, h3⟩ := hd
    unfold takeRanges
    rw [if_pos]
    · rw [takeRange_ok h h2]
      simp only
      rw [ih (h.filter _) h3]
      simp only
      have ha : ∀ p : Pkt, inRanges ((lo, hi) :: rs) p = (within lo hi p || inRanges rs p) := fun p => by
        unfold inRanges; rw [List.any_cons]
      congr 2
      · rw [List.filter_filter]
        apply List.filter_congr
        intro p _
        rw [ha]; cases within lo hi p <;> cases inRanges rs p <;> rfl
      · rw [List.filter_filter, ← List.reverse_append]
        congr 1
        have hsplit : ∀ l : List Pkt, Sorted l →
            l.filter (fun p => inRanges rs p && !within lo hi p) ++ l.filter (within lo hi) = l.filter (inRanges ((lo, hi) :: rs)) := by
          intro l
          induction l with
          | nil => intro _; rfl
          | cons p l ihl =>
            intro hl
            obtain ⟨hl1, hl2⟩ := List.pairwise_cons.mp hl
            have hp := ha p
            by_cases hw : within lo hi p = true
            · rw [List.filter_cons_of_neg (by simp [hw]), List.filter_cons_of_pos hw, List.filter_cons_of_pos (by simp [hp, hw])]
              have hz : l.filter (fun p => inRanges rs p && !within lo hi p) = [] := by
                rw [List.filter_eq_nil_iff]
                intro q hq hc
                simp only [Bool.and_eq_true] at hc
                obtain ⟨r, hr, hr1, hr2⟩ := inRanges_iff.mp hc.1
                have := h3.lt r hr
                have := hl1 q hq
                unfold within at hw
                simp only [Bool.and_eq_true, decide_eq_true_eq] at hw
                omega
              have := ihl hl2
              rw [hz, List.nil_append] at this
              rw [hz, List.nil_append, this]
            · have hw' : within lo hi p = false := by simpa using hw
              by_cases hr : inRanges rs p = true
              · rw [List.filter_cons_of_pos (by simp [hw', hr]), List.filter_cons_of_neg (by simp [hw']), List.filter_cons_of_pos (by simp [hp, hr]),
                  List.cons_append, ihl hl2]
              · rw [List.filter_cons_of_neg (by simp [hr]), List.filter_cons_of_neg (by simp [hw']), List.filter_cons_of_neg (by simp [hp, hw', hr]), ihl hl2]
        have hperm := hsplit ps h
        rw [← hperm]
    · cases prev with
      | none => rfl
      | some s => simpa using h1 s rfl

/-! ## Expiry and loss -/

/-- Packets are in the order they were sent. -/
def Timed (ps : List Pkt) : Prop := ps.Pairwise fun a b => a.sent ≤ b.sent

/-- The packets declared lost come first, in the order they were declared lost. -/
def LostFirst (ps : List Pkt) : Prop := ps.Pairwise fun a b => ∀ t, b.lost = some t → ∃ u, a.lost = some u ∧ u ≤ t

theorem removeExpired_ok {ps : List Pkt} (h : LostFirst ps) (now cd : Nat) :
    removeExpired ps now cd = .ok (ps.filter (fun p => !p.expired now cd), countEliciting (ps.filter (·.expired now cd))) := by
  have hp : ps.Pairwise (fun a b => b.expired now cd = true → a.expired now cd = true) := by
    refine List.Pairwise.imp ?_ h
    intro a b hab hb
    unfold Pkt.expired at *
    cases hl : b.lost with
    | none => rw [hl] at hb; cases hb
    | some t =>
      rw [hl] at hb
      obtain ⟨u, hu, hut⟩ := hab t hl
      rw [hu]
      simp only [decide_eq_true_eq] at *
      omega
  obtain ⟨h1, h2⟩ := takeWhile_eq_filter hp
  cases ps with
  | nil => rfl
  | cons p ps =>
    unfold removeExpired
    simp only
    rw [h1, h2]
    split
    · rw [if_pos]
      rw [List.all_eq_true]
      intro q hq
      exact (List.mem_filter.mp hq).2
    · rename_i hn
      have hz : (p :: ps).filter (·.expired now cd) = [] := by
        rw [← h1]
        exact List.takeWhile_cons_of_neg hn
      have hs : (p :: ps).filter (fun p => !p.expired now cd) = p :: ps := by
        rw [← h2]
        exact List.dropWhile_cons_of_neg hn
      rw [hz, hs]; rfl

/-- The condition for a packet to be lost: a later one was acknowledged, and it is old enough or three
later ones have been sent. -/
def LossDue (la now delay : Nat) (p : Pkt) : Prop := p.pn < la ∧ (p.sent + delay ≤ now ∨ p.pn + packetThreshold ≤ la)

instance (la now delay p) : Decidable (LossDue la now delay p) := by unfold LossDue; infer_instance

/-- The effect of loss detection on a packet. -/
def markLost (la now delay : Nat) (p : Pkt) : Pkt :=
  if LossDue la now delay p ∧ p.lost = none then { p with lost := some now } else p

/-- A packet that loss detection newly finds to be lost. -/
def newlyLost (la now delay : Nat) (p : Pkt) : Bool := decide (LossDue la now delay p ∧ p.lost = none)

theorem markLost_of_not {la now delay p} (h : ¬ LossDue la now delay p) : markLost la now delay p = p := by
  unfold markLost; rw [if_neg (fun hc => h hc.1)]

theorem declareLost_ok {la now delay : Nat} : ∀ {ps : List Pkt}, Sorted ps → Timed ps →
    (declareLost la now delay ps).1 = ps.map (markLost la now delay) ∧
    (declareLost la now delay ps).2.1 = (ps.filter (newlyLost la now delay)).map (markLost la now delay) := by
  intro ps
  induction ps with
  | nil => intro _ _; exact ⟨rfl, rfl⟩
  | cons p ps ih =>
    intro hs ht
    obtain ⟨hs1, hs2⟩ := List.pairwise_cons.mp hs
    obtain ⟨ht1, ht2⟩ := List.pairwise_cons.mp ht
    obtain ⟨i1, i2⟩ := ih hs2 ht2
    have hstop : ¬ LossDue la now delay p →
        (p :: ps) = (p :: ps).map (markLost la now delay) ∧ ([] : List Pkt) = ((p :: ps).filter (newlyLost la now delay)).map (markLost la now delay) := by
      intro hn
      have hall : ∀ q ∈ p :: ps, ¬ LossDue la now delay q := by
        intro q hq
        rcases List.mem_cons.mp hq with rfl | hq
        · exact hn
        · intro hc
          apply hn
          have := hs1 q hq
          have := ht1 q hq
          unfold LossDue at *
          omega
      constructor
      · conv => lhs; rw [← List.map_id (p :: ps)]
        exact List.map_congr_left (fun q hq => (markLost_of_not (hall q hq)).symm)
      · have : (p :: ps).filter (newlyLost la now delay) = [] := by
          rw [List.filter_eq_nil_iff]
          intro q hq hc
          unfold newlyLost at hc
          simp only [decide_eq_true_eq] at hc
          exact hall q hq hc.1
        rw [this]; rfl
    unfold declareLost
    split
    · rename_i hla
      split
      · rename_i hc
        have hd : LossDue la now delay p := ⟨hla, hc⟩
        simp only
        cases hl : p.lost with
        | some t =>
          simp only
          have hm : markLost la now delay p = p := by unfold markLost; rw [if_neg]; rintro ⟨_, h⟩; rw [hl] at h; cases h
          have hnl : ¬ newlyLost la now delay p = true := by unfold newlyLost; simp [hl]
          rw [List.map_cons, hm, List.filter_cons_of_neg hnl, i1, i2]
          exact ⟨rfl, rfl⟩
        | none =>
          simp only
          have hm : markLost la now delay p = { p with lost := some now } := by unfold markLost; rw [if_pos ⟨hd, hl⟩]
          have hnl : newlyLost la now delay p = true := by unfold newlyLost; simp [hl, hd]
          rw [List.map_cons, hm, List.filter_cons_of_pos hnl, List.map_cons, hm, i1, i2]
          exact ⟨rfl, rfl⟩
      · rename_i hc
        exact hstop (fun h => hc h.2)
    · rename_i hla
      exact hstop (fun h => hla h.1)

theorem markLost_pn (la now delay p) : (markLost la now delay p).pn = p.pn := by unfold markLost; split <;> rfl
theorem markLost_sent (la now delay p) : (markLost la now delay p).sent = p.sent := by unfold markLost; split <;> rfl
theorem markLost_pt (la now delay p) : (markLost la now delay p).pt = p.pt := by unfold markLost; split <;> rfl
theorem markLost_eliciting (la now delay p) : (markLost la now delay p).eliciting = p.eliciting := by unfold markLost; split <;> rfl
theorem markLost_primary (la now delay p) : (markLost la now delay p).primary = p.primary := by unfold markLost; split <;> rfl
theorem markLost_len (la now delay p) : (markLost la now delay p).len = p.len := by unfold markLost; split <;> rfl
theorem markLost_pto (la now delay p) : (markLost la now delay p).pto = p.pto := by unfold markLost; split <;> rfl
theorem markLost_epoch (la now delay p) : (markLost la now delay p).epoch = p.epoch := by unfold markLost; split <;> rfl
theorem markLost_pmtud (la now delay p) : (markLost la now delay p).pmtud = p.pmtud := by unfold markLost; split <;> rfl
theorem markLost_key (la now delay p) : (markLost la now delay p).key = p.key := by unfold markLost; split <;> rfl

/-! ## Probe timeouts -/

/-- The packet once it has been given out on a probe timeout. -/
def Pkt.marked (p : Pkt) : Pkt := { p with pto := true }

/-- Mark a packet that is ready. -/
def Pkt.mk? (p : Pkt) : Pkt := if p.ptoReady then p.marked else p

/-- The size of the packets that are ready. -/
def readySize (ps : List Pkt) : Nat := total (fun p => if p.ptoReady then p.len else 0) ps

/-- Either everything that is ready fits and is handed out, or the first ready packet `x` that does not fit
is marked all the same, and what was ready before it is handed out. -/
theorem ptoTake_ok (cap : Nat) : ∀ (ps : List Pkt) (size : Nat),
    (ptoTake cap size ps = (ps.map Pkt.mk?, (ps.filter Pkt.ptoReady).map Pkt.marked, size + readySize ps) ∧
      (readySize ps = 0 ∨ size + readySize ps ≤ cap)) ∨
    ∃ a x b, ps = a ++ x :: b ∧ x.ptoReady = true ∧ cap < size + readySize a + x.len ∧
      ptoTake cap size ps = (a.map Pkt.mk? ++ x.marked :: b, (a.filter Pkt.ptoReady).map Pkt.marked, size + readySize a + x.len) := by
  intro ps
  induction ps with
  | nil => intro size; exact .inl ⟨rfl, .inl rfl⟩
  | cons p ps ih =>
    intro size
    cases hr : p.ptoReady with
    | false =>
      have hm : p.mk? = p := by unfold Pkt.mk?; rw [hr]; rfl
      have hz : ∀ l, readySize (p :: l) = readySize l := by intro l; unfold readySize; rw [total_cons, hr]; simp
      rcases ih size with ⟨h1, h2⟩ | ⟨a, x, b, h1, h2, h3, h4⟩
      · refine .inl ⟨?_, ?_⟩
        · unfold ptoTake
          rw [hr, h1, List.map_cons, hm, List.filter_cons_of_neg (by simp [hr]), hz]
          rfl
        · rw [hz]; exact h2
      · refine .inr ⟨p :: a, x, b, by rw [h1]; rfl, h2, by rw [hz]; exact h3, ?_⟩
        unfold ptoTake
        rw [hr, h4, List.map_cons, hm, List.filter_cons_of_neg (by simp [hr]), hz]
        rfl
    | true =>
      have hm : p.mk? = p.marked := by unfold Pkt.mk?; rw [hr]; rfl
      have hz : ∀ l, readySize (p :: l) = p.len + readySize l := by intro l; unfold readySize; rw [total_cons, hr]; simp
      by_cases hc : size + p.len ≤ cap
      · rcases ih (size + p.len) with ⟨h1, h2⟩ | ⟨a, x, b, h1, h2, h3, h4⟩
        · refine .inl ⟨?_, ?_⟩
          · unfold ptoTake
            rw [hr, if_pos rfl, if_pos hc, h1, List.map_cons, hm, List.filter_cons_of_pos hr, hz, List.map_cons, ← Nat.add_assoc]
            rfl
          · rw [hz]; omega
        · refine .inr ⟨p :: a, x, b, by rw [h1]; rfl, h2, by rw [hz]; omega, ?_⟩
          unfold ptoTake
          rw [hr, if_pos rfl, if_pos hc, h4, List.map_cons, hm, List.filter_cons_of_pos hr, hz, List.map_cons, ← Nat.add_assoc]
          rfl
      · refine .inr ⟨[], p, ps, rfl, hr, by show cap < size + 0 + p.len; omega, ?_⟩
        unfold ptoTake
        rw [hr, if_pos rfl, if_neg hc]
        rfl

end Neqo.Rec
