import Verif.Acks.Spec

/-! # Facts about the tracked ranges -/
namespace Neqo.Acks
open Neqo.Codec (maxVarint)

/-- Descending, disjoint ranges with at least one missing number between them. -/
def WF : List PRange → Prop
  | [] => True
  | r :: rs => r.smallest ≤ r.largest ∧ (∀ x ∈ rs, x.largest + 1 < r.smallest) ∧ WF rs

def In (rs : List PRange) (i : Nat) : Prop := ∃ r ∈ rs, r.smallest ≤ i ∧ i ≤ r.largest

theorem In_nil {i} : ¬ In [] i := by rintro ⟨r, hr, _⟩; cases hr

theorem In_cons {r rs i} : In (r :: rs) i ↔ (r.smallest ≤ i ∧ i ≤ r.largest) ∨ In rs i := by
  constructor
  · rintro ⟨x, hx, h⟩
    rcases List.mem_cons.mp hx with rfl | hx
    · exact .inl h
    · exact .inr ⟨x, hx, h⟩
  · rintro (h | ⟨x, hx, h⟩)
    · exact ⟨r, List.mem_cons_self, h⟩
    · exact ⟨x, List.mem_cons_of_mem _ hx, h⟩

theorem WF.le : ∀ {rs : List PRange}, WF rs → ∀ {x}, x ∈ rs → x.smallest ≤ x.largest
  | _ :: _, h, x, hx => by
    rcases List.mem_cons.mp hx with rfl | hx
    · exact h.1
    · exact WF.le h.2.2 hx

theorem WF.head_largest {r : PRange} {rs} (h : WF (r :: rs)) {i} (hi : In (r :: rs) i) : i ≤ r.largest := by
  rcases In_cons.mp hi with hi | ⟨x, hx, hi⟩
  · exact hi.2
  · have := h.2.1 x hx; have := h.1; omega

theorem WF.sublist : ∀ {a b : List PRange}, a.Sublist b → WF b → WF a
  | _, _, .slnil, _ => trivial
  | _, _, .cons _ h, hw => WF.sublist h hw.2.2
  | _, _, .cons_cons _ h, hw => ⟨hw.1, fun x hx => hw.2.1 x (h.subset hx), WF.sublist h hw.2.2⟩

theorem contains_iff {r : PRange} {pn} : r.contains pn = true ↔ r.smallest ≤ pn ∧ pn ≤ r.largest := by
  simp [PRange.contains]

structure Added (pn : Nat) (rs rs' : List PRange) : Prop where
  wf : WF rs'
  mem : ∀ i, In rs' i ↔ In rs i ∨ i = pn
  new : ∃ x ∈ rs', x.needed = true ∧ x.smallest ≤ pn ∧ pn ≤ x.largest
  old : ∀ x ∈ rs', x.needed = false → x ∈ rs
  len : rs'.length ≤ rs.length + 1

theorem joinNext_ok {pn} {r : PRange} {rest} (hw : WF (r :: rest)) (hs : r.smallest = pn + 1) :
    ∃ rs', joinNext pn { r with smallest := r.smallest - 1, needed := true } rest = .ok rs' ∧
      Added pn (r :: rest) rs' := by
  obtain ⟨h1, h2, h3⟩ := hw
  cases rest with
  | nil =>
    refine ⟨_, rfl, ⟨⟨?_, (by intro x hx; cases hx), trivial⟩, ?_, ?_, ?_, by simp⟩⟩
    · simp only; omega
    · intro i
      simp only [In_cons, In_nil, or_false]; omega
    · exact ⟨_, List.mem_cons_self, rfl, by simp only; omega, by simp only; omega⟩
    · intro x hx hn
      rcases List.mem_singleton.mp hx with rfl
      cases hn
  | cons nxt rest =>
    have hx := h2 nxt List.mem_cons_self
    have hp : pn ≠ 0 := by omega
    obtain ⟨g1, g2, g3⟩ := h3
    simp only [joinNext]
    rw [if_neg hp]
    by_cases hj : pn - 1 = nxt.largest
    · rw [if_pos hj]
      have hm : nxt.mergeLarger { r with smallest := r.smallest - 1, needed := true }
          = .ok { nxt with largest := r.largest, needed := nxt.needed || true } := by
        unfold PRange.mergeLarger
        rw [if_pos (by simp only; omega)]
      rw [hm]
      refine ⟨_, rfl, ⟨⟨?_, ?_, g3⟩, ?_, ?_, ?_, by simp⟩⟩
      · simp only; omega
      · exact g2
      · intro i
        simp only [In_cons]
        by_cases hI : In rest i <;> simp only [hI, or_true, or_false, true_or] <;> omega
      · exact ⟨_, List.mem_cons_self, by simp, by simp only; omega, by simp only; omega⟩
      · intro x hx hn
        rcases List.mem_cons.mp hx with rfl | hx
        · simp at hn
        · exact List.mem_cons_of_mem _ (List.mem_cons_of_mem _ hx)
    · rw [if_neg hj]
      refine ⟨_, rfl, ⟨⟨?_, ?_, g1, g2, g3⟩, ?_, ?_, ?_, by simp⟩⟩
      · simp only; omega
      · intro x hx'
        show x.largest + 1 < r.smallest - 1
        rcases List.mem_cons.mp hx' with rfl | hx'
        · omega
        · have := g2 x hx'; omega
      · intro i
        simp only [In_cons]
        by_cases hI : In rest i <;> simp only [hI, or_true, or_false, true_or] <;> omega
      · exact ⟨_, List.mem_cons_self, rfl, by simp only; omega, by simp only; omega⟩
      · intro x hx hn
        rcases List.mem_cons.mp hx with rfl | hx
        · cases hn
        · exact List.mem_cons_of_mem _ hx

theorem addPn_ok {pn} : ∀ {rs : List PRange}, WF rs → ¬ In rs pn → ∃ rs', addPn pn rs = .ok rs' ∧ Added pn rs rs'
  | [], _, _ => by
    refine ⟨_, rfl, ⟨⟨Nat.le_refl _, (by intro x hx; cases hx), trivial⟩, ?_, ?_, ?_, by simp⟩⟩
    · intro i; simp only [In_cons, In_nil, PRange.new, or_false, false_or]; omega
    · exact ⟨_, List.mem_cons_self, rfl, Nat.le_refl _, Nat.le_refl _⟩
    · intro x hx hn
      rcases List.mem_singleton.mp hx with rfl
      cases hn
  | r :: rest, hw, hn => by
    have hw' := hw
    obtain ⟨h1, h2, h3⟩ := hw
    have hc : ¬ (r.smallest ≤ pn ∧ pn ≤ r.largest) := fun h => hn (In_cons.mpr (.inl h))
    have hc' : ¬ r.contains pn = true := fun h => hc (contains_iff.mp h)
    have hr : ¬ In rest pn := fun h => hn (In_cons.mpr (.inr h))
    unfold addPn
    rw [if_neg hc']
    by_cases e1 : r.largest + 1 = pn
    · rw [if_pos e1]
      refine ⟨_, rfl, ⟨⟨?_, h2, h3⟩, ?_, ?_, ?_, by simp⟩⟩
      · simp only; omega
      · intro i; simp only [In_cons]; by_cases hI : In rest i <;> simp only [hI, or_true, or_false, true_or] <;> omega
      · exact ⟨_, List.mem_cons_self, rfl, by simp only; omega, by simp only; omega⟩
      · intro x hx hn
        rcases List.mem_cons.mp hx with rfl | hx
        · cases hn
        · exact List.mem_cons_of_mem _ hx
    · rw [if_neg e1]
      by_cases e2 : r.smallest = pn + 1
      · rw [if_pos e2]
        exact joinNext_ok hw' e2
      · rw [if_neg e2]
        by_cases e3 : r.largest < pn
        · rw [if_pos e3]
          refine ⟨_, rfl, ⟨⟨Nat.le_refl _, ?_, hw'⟩, ?_, ?_, ?_, by simp⟩⟩
          · intro x hx
            show x.largest + 1 < pn
            rcases List.mem_cons.mp hx with rfl | hx
            · omega
            · have := h2 x hx; omega
          · intro i; simp only [In_cons, PRange.new]
            by_cases hI : In rest i <;> simp only [hI, or_true, or_false, true_or] <;> omega
          · exact ⟨_, List.mem_cons_self, rfl, Nat.le_refl _, Nat.le_refl _⟩
          · intro x hx hn
            rcases List.mem_cons.mp hx with rfl | hx
            · cases hn
            · exact hx
        · rw [if_neg e3]
          obtain ⟨rs', e, ha⟩ := addPn_ok h3 hr
          rw [e]
          refine ⟨_, rfl, ⟨⟨h1, ?_, ha.wf⟩, ?_, ?_, ?_, ?_⟩⟩
          · intro x hx
            have hi : In rs' x.largest := ⟨x, hx, ha.wf.le hx, Nat.le_refl _⟩
            rcases (ha.mem _).mp hi with ⟨y, hy, hi⟩ | hi
            · have := h2 y hy; omega
            · omega
          · intro i; simp only [In_cons, ha.mem]; exact or_assoc.symm
          · obtain ⟨x, hx, hp⟩ := ha.new
            exact ⟨x, List.mem_cons_of_mem _ hx, hp⟩
          · intro x hx hn
            rcases List.mem_cons.mp hx with rfl | hx
            · exact List.mem_cons_self
            · exact List.mem_cons_of_mem _ (ha.old x hx hn)
          · have := ha.len; simp only [List.length_cons]; omega

theorem addPn_new {pn} {rs rs' : List PRange} (h : addPn pn rs = .ok rs') (hw : WF rs) : ¬ In rs pn := by
  induction rs generalizing rs' with
  | nil => exact In_nil
  | cons r rest ih =>
    intro hi
    unfold addPn at h
    have hl := hw.head_largest hi
    rcases In_cons.mp hi with hi | hi
    · rw [if_pos (contains_iff.mpr hi)] at h; cases h
    · by_cases hc : r.contains pn = true
      · rw [if_pos hc] at h; cases h
      · obtain ⟨x, hx, hx1, hx2⟩ := id hi
        have := hw.2.1 x hx
        rw [if_neg hc, if_neg (by have := hw.1; omega), if_neg (by omega), if_neg (by have := hw.1; omega)] at h
        cases e : addPn pn rest with
        | error e' => rw [e] at h; cases h
        | ok rs'' => exact ih e hw.2.2 hi

theorem WF.append : ∀ {a b : List PRange}, WF (a ++ b) → ∀ {x y}, x ∈ a → y ∈ b → y.largest + 1 < x.smallest
  | r :: a, b, h, x, y, hx, hy => by
    rcases List.mem_cons.mp hx with rfl | hx
    · exact h.2.1 y (List.mem_append_right _ hy)
    · exact WF.append h.2.2 hx hy

theorem isDup_iff {pn} : ∀ {rs : List PRange}, WF rs →
    ((rs.takeWhile (fun r => decide (pn ≤ r.largest))).any (fun r => r.contains pn) = true ↔ In rs pn)
  | [], _ => by simp [In_nil]
  | r :: rs, hw => by
    rw [In_cons, List.takeWhile_cons]
    by_cases h : pn ≤ r.largest
    · rw [if_pos (by simpa using h), List.any_cons, Bool.or_eq_true, isDup_iff hw.2.2, contains_iff]
    · rw [if_neg (by simpa using h)]
      constructor
      · intro h'; simp at h'
      · rintro (h' | ⟨x, hx, h'⟩)
        · omega
        · have := hw.2.1 x hx; have := hw.1; omega

/-! ## Acknowledged ACK frames -/

/-- `rs'` is `rs` with some ranges that lie within a range of `acked` no longer needed. -/
inductive AckRel (acked : List PRange) : List PRange → List PRange → Prop
  | nil : AckRel acked [] []
  | cons {x y rs rs'} (h1 : y.largest = x.largest) (h2 : y.smallest = x.smallest)
      (h3 : y.needed = x.needed ∨ (y.needed = false ∧ ∃ a ∈ acked, a.smallest ≤ x.smallest ∧ x.largest ≤ a.largest))
      (h : AckRel acked rs rs') : AckRel acked (x :: rs) (y :: rs')

theorem AckRel.refl {acked} : ∀ rs, AckRel acked rs rs
  | [] => .nil
  | _ :: rs => .cons rfl rfl (.inl rfl) (AckRel.refl rs)

theorem AckRel.mono {a b rs rs'} (h : AckRel a rs rs') (hs : ∀ x ∈ a, x ∈ b) : AckRel b rs rs' := by
  induction h with
  | nil => exact .nil
  | cons h1 h2 h3 _ ih =>
    refine .cons h1 h2 ?_ ih
    rcases h3 with h3 | ⟨h3, a', ha, h4⟩
    · exact .inl h3
    · exact .inr ⟨h3, a', hs _ ha, h4⟩

theorem ackLoop_rel (rs acked : List PRange) : AckRel acked rs (ackLoop rs acked) := by
  fun_induction ackLoop rs acked with
  | case1 => exact .nil
  | case2 => exact AckRel.refl _
  | case3 cur rest a as h ih => exact .cons rfl rfl (.inl rfl) ih
  | case4 cur rest a as h ih =>
    have ih' := ih.mono (b := a :: as) (fun x hx => List.mem_cons_of_mem _ hx)
    generalize ackLoop (cur.acked a :: rest) as = out at ih'
    cases ih' with
    | cons h1 h2 h3 h4 =>
      unfold PRange.acked at h1 h2 h3
      by_cases hc : a.smallest ≤ cur.smallest ∧ a.largest ≥ cur.largest
      · rw [if_pos hc] at h1 h2 h3
        refine .cons h1 h2 ?_ h4
        refine .inr ⟨?_, a, List.mem_cons_self, hc.1, hc.2⟩
        rcases h3 with h3 | h3
        · exact h3
        · exact h3.1
      · rw [if_neg hc] at h1 h2 h3
        exact .cons h1 h2 h3 h4

theorem AckRel.length {a rs rs'} (h : AckRel a rs rs') : rs'.length = rs.length := by
  induction h with
  | nil => rfl
  | cons _ _ _ _ ih => simp [ih]

theorem AckRel.back {a rs rs'} (h : AckRel a rs rs') : ∀ y ∈ rs', ∃ x ∈ rs, y.largest = x.largest ∧
    y.smallest = x.smallest ∧
    (y.needed = x.needed ∨ (y.needed = false ∧ ∃ a' ∈ a, a'.smallest ≤ x.smallest ∧ x.largest ≤ a'.largest)) := by
  induction h with
  | nil => intro y hy; cases hy
  | cons h1 h2 h3 _ ih =>
    intro y hy
    rcases List.mem_cons.mp hy with rfl | hy
    · exact ⟨_, List.mem_cons_self, h1, h2, h3⟩
    · obtain ⟨x, hx, h⟩ := ih y hy
      exact ⟨x, List.mem_cons_of_mem _ hx, h⟩

theorem AckRel.fwd {a rs rs'} (h : AckRel a rs rs') : ∀ x ∈ rs, ∃ y ∈ rs', y.largest = x.largest ∧
    y.smallest = x.smallest ∧ (x.needed = false → y.needed = false) := by
  induction h with
  | nil => intro y hy; cases hy
  | cons h1 h2 h3 _ ih =>
    intro y hy
    rcases List.mem_cons.mp hy with rfl | hy
    · refine ⟨_, List.mem_cons_self, h1, h2, fun hn => ?_⟩
      rcases h3 with h3 | h3
      · rw [h3, hn]
      · exact h3.1
    · obtain ⟨x, hx, h⟩ := ih y hy
      exact ⟨x, List.mem_cons_of_mem _ hx, h⟩

theorem AckRel.in_iff {a rs rs'} (h : AckRel a rs rs') (i : Nat) : In rs' i ↔ In rs i := by
  constructor
  · rintro ⟨y, hy, hi⟩
    obtain ⟨x, hx, e1, e2, _⟩ := h.back y hy
    exact ⟨x, hx, by rw [← e2, ← e1]; exact hi⟩
  · rintro ⟨x, hx, hi⟩
    obtain ⟨y, hy, e1, e2, _⟩ := h.fwd x hx
    exact ⟨y, hy, by rw [e2, e1]; exact hi⟩

theorem AckRel.wf {a rs rs'} (h : AckRel a rs rs') (hw : WF rs) : WF rs' := by
  induction h with
  | nil => trivial
  | cons h1 h2 h3 hr ih =>
    refine ⟨by rw [h1, h2]; exact hw.1, ?_, ih hw.2.2⟩
    intro y hy
    obtain ⟨x, hx, e1, _⟩ := hr.back y hy
    rw [e1, h2]
    exact hw.2.1 x hx

/-- A range reported exactly as it still is stops being reported once the report is acknowledged. -/
theorem ackLoop_exact (rs acked : List PRange) (hw : WF rs) (ha : WF acked) {x a : PRange}
    (hx : x ∈ rs) (haa : a ∈ acked) (h1 : a.largest = x.largest) (h2 : a.smallest = x.smallest) :
    ∃ y ∈ ackLoop rs acked, y.largest = x.largest ∧ y.smallest = x.smallest ∧ y.needed = false := by
  fun_induction ackLoop rs acked generalizing x with
  | case1 => cases hx
  | case2 => cases haa
  | case3 cur rest b as h ih =>
    rcases List.mem_cons.mp hx with rfl | hx
    · exfalso
      have := hw.1
      have : In (b :: as) a.largest := ⟨a, haa, ha.le haa, Nat.le_refl _⟩
      have := ha.head_largest this
      omega
    · obtain ⟨y, hy, hp⟩ := ih hw.2.2 ha hx haa h1 h2
      exact ⟨y, List.mem_cons_of_mem _ hy, hp⟩
  | case4 cur rest b as h ih =>
    have hb : (cur.acked b).largest = cur.largest ∧ (cur.acked b).smallest = cur.smallest := by
      unfold PRange.acked; split <;> exact ⟨rfl, rfl⟩
    have hw' : WF (cur.acked b :: rest) := ⟨by rw [hb.1, hb.2]; exact hw.1, by rw [hb.2]; exact hw.2.1, hw.2.2⟩
    rcases List.mem_cons.mp haa with rfl | haa
    · rcases List.mem_cons.mp hx with rfl | hx
      · have hn : (x.acked a).needed = false := by
          unfold PRange.acked; rw [if_pos ⟨by omega, by omega⟩]
        obtain ⟨y, hy, e1, e2, e3⟩ := (ackLoop_rel (x.acked a :: rest) as).fwd _ List.mem_cons_self
        exact ⟨y, hy, e1.trans hb.1, e2.trans hb.2, e3 hn⟩
      · have := hw.2.1 x hx; omega
    · rcases List.mem_cons.mp hx with rfl | hx
      · obtain ⟨y, hy, e1, e2, e3⟩ := ih hw' ha.2.2 List.mem_cons_self haa (by rw [hb.1]; exact h1) (by rw [hb.2]; exact h2)
        exact ⟨y, hy, e1.trans hb.1, e2.trans hb.2, e3⟩
      · exact ih hw' ha.2.2 (List.mem_cons_of_mem _ hx) haa h1 h2

/-! ## Writing frames -/

theorem len_ok {r : PRange} (h : r.smallest ≤ r.largest) : r.len = .ok (r.largest - r.smallest + 1) := by
  unfold PRange.len; rw [if_pos h]

theorem encode_ok : ∀ {rs : List PRange} {last : Nat}, WF rs → (∀ x ∈ rs, x.largest + 1 < last) →
    ∃ out, encodeRanges last rs = .ok out ∧ out.length = rs.length ∧
      expandFrom last out = some (rs.map (fun x => (x.smallest, x.largest))) ∧ ∀ i, coversFrom last out i ↔ In rs i
  | [], _, _, _ => ⟨[], rfl, rfl, rfl, fun i => ⟨fun h => h.elim, fun h => (In_nil h).elim⟩⟩
  | r :: rs, last, hw, hl => by
    have h0 := hl r List.mem_cons_self
    obtain ⟨out, e, en, ex, ec⟩ := encode_ok hw.2.2 hw.2.1
    have hw1 := hw.1
    have e3 : last - (last - r.largest - 2) - 2 = r.largest := by omega
    have e4 : last - (last - r.largest - 2) - 2 - (r.largest - r.smallest + 1 - 1) = r.smallest := by omega
    refine ⟨(last - r.largest - 2, r.largest - r.smallest + 1 - 1) :: out, ?_, by simp [en], ?_, ?_⟩
    · unfold encodeRanges
      rw [if_neg (by omega), len_ok hw.1, e]
    · unfold expandFrom
      rw [if_pos (by omega), e4, e3, ex]
      rfl
    · intro i
      unfold coversFrom
      rw [e4, e3, ec, In_cons]
      constructor
      · exact fun h => h.2
      · exact fun h => ⟨by omega, h⟩

/-- The ranges picked for a frame with `remaining` bytes. -/
def Recvd.picked (s : Recvd) (remaining : Nat) : List PRange :=
  (s.ranges.filter (fun r => r.needed)).take (min (1 + (remaining - usefulAckLen) / 16) maxPerFrame)

theorem picked_sub (s : Recvd) (remaining) : (s.picked remaining).Sublist s.ranges :=
  (List.take_sublist _ _).trans List.filter_sublist

/-- What `writeFrame` does. -/
theorem writeFrame_cases {s : Recvd} (now rtt remaining : Nat) (hw : WF s.ranges) :
    (s.writeFrame now rtt remaining = .ok (s, none) ∧
      (s.ackNow now rtt = false ∨ remaining < usefulAckLen ∨ (∀ x ∈ s.ranges, x.needed = false) ∨ s.largestTime = none)) ∨
    ∃ f, s.writeFrame now rtt remaining =
        .ok ({ s with ackTime := none, lastAckTime := some now, count := 0 }, some (f, s.picked remaining)) ∧
      s.ackNow now rtt = true ∧ usefulAckLen ≤ remaining ∧
      s.picked remaining ≠ [] ∧ f.ranges.length + 1 = (s.picked remaining).length ∧
      expand f.largest f.first f.ranges = some ((s.picked remaining).map (fun x => (x.smallest, x.largest))) ∧
      ∀ i, f.Covers i ↔ In (s.picked remaining) i := by
  unfold Recvd.writeFrame
  by_cases h1 : s.ackNow now rtt = false
  · rw [if_pos h1]; exact .inl ⟨rfl, .inl h1⟩
  rw [if_neg h1]
  by_cases h2 : remaining < usefulAckLen
  · rw [if_pos h2]; exact .inl ⟨rfl, .inr (.inl h2)⟩
  rw [if_neg h2]
  have hpw : WF (s.picked remaining) := hw.sublist (picked_sub s remaining)
  show (_ ∨ _)
  cases hp : s.picked remaining with
  | nil =>
    have hp' := hp
    unfold Recvd.picked at hp'
    simp only [hp']
    refine .inl ⟨trivial, .inr (.inr (.inl ?_))⟩
    rw [List.take_eq_nil_iff] at hp'
    have : s.ranges.filter (fun r => r.needed) = [] := by
      rcases hp' with h | h
      · exact absurd h (by unfold maxPerFrame; omega)
      · exact h
    intro x hx
    have := List.filter_eq_nil_iff.mp this x hx
    simpa using this
  | cons first rest =>
    rw [hp] at hpw
    have hp' := hp
    unfold Recvd.picked at hp'
    simp only [hp']
    cases ht : s.largestTime with
    | none => exact .inl ⟨rfl, .inr (.inr (.inr rfl))⟩
    | some t =>
      obtain ⟨out, e, en, ex, ec⟩ := encode_ok hpw.2.2 hpw.2.1
      simp only [len_ok hpw.1, e]
      have hw1 := hpw.1
      have e5 : first.largest - (first.largest - first.smallest + 1 - 1) = first.smallest := by omega
      refine .inr ⟨_, rfl, by simpa using h1, by omega, by simp, by simp [en], ?_, ?_⟩
      · unfold expand
        simp only
        rw [if_pos (by omega), e5, ex]
        rfl
      · intro i
        unfold AckFrame.Covers
        simp only
        rw [e5, ec, In_cons]
        constructor
        · exact fun h => h.2
        · exact fun h => ⟨by omega, h⟩

end Neqo.Acks
