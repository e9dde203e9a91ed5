import Verif.SendStream.TrackerSpec
import Mathlib.Tactic.ByContra

/-! # Exactness of `RangeTracker`: lemmas -/
namespace Neqo.Send
open SMap

abbrev Ent := Nat × (Nat × RS)

/-- End of an entry. -/
def fin (e : Ent) : Nat := e.1 + e.2.1

/-- Some entry of `u` in state `s` contains byte `i`. -/
def Has (u : Used) (s : RS) (i : Nat) : Prop := ∃ e ∈ u, e.2.2 = s ∧ e.1 ≤ i ∧ i < fin e

/-- Sorted, disjoint, non-empty ranges. -/
structure UOk (u : Used) : Prop where
  sorted : Sorted u
  pos : ∀ e ∈ u, 0 < e.2.1
  disj : ∀ e ∈ u, ∀ e' ∈ u, e.1 < e'.1 → fin e ≤ e'.1

/-- Acked ranges never touch. -/
def Apart (u : Used) : Prop :=
  ∀ e ∈ u, ∀ e' ∈ u, e.2.2 = .acked → e'.2.2 = .acked → e.1 < e'.1 → fin e < e'.1

/-- The representation invariant. -/
structure TOk (t : Tracker) : Prop where
  u : UOk t.used
  apart : Apart t.used
  low : ∀ e ∈ t.used, t.acked ≤ e.1
  lowA : ∀ e ∈ t.used, e.2.2 = .acked → t.acked < e.1
  cache : t.cache = none ∨ t.cache = some (firstGo t.acked t.used)

def AckedAt (t : Tracker) (i : Nat) : Prop := i < t.acked ∨ Has t.used .acked i
def SentAt (t : Tracker) (i : Nat) : Prop := Has t.used .sent i

theorem tok_new : TOk {} :=
  ⟨⟨sorted_nil, by simp, by simp⟩, by simp [Apart], by simp, by simp, .inl rfl⟩

theorem UOk.tail {e : Ent} {u : Used} (h : UOk (e :: u)) : UOk u :=
  ⟨(sorted_cons.mp h.sorted).2, fun x hx => h.pos x (by simp [hx]),
    fun x hx y hy => h.disj x (by simp [hx]) y (by simp [hy])⟩

theorem UOk.head_lt {e : Ent} {u : Used} (h : UOk (e :: u)) : ∀ x ∈ u, e.1 < x.1 :=
  (sorted_cons.mp h.sorted).1

theorem UOk.inj {u : Used} (h : UOk u) {e e' : Ent} (he : e ∈ u) (he' : e' ∈ u) {i : Nat}
    (h1 : e.1 ≤ i) (h2 : i < fin e) (h3 : e'.1 ≤ i) (h4 : i < fin e') : e = e' := by
  rcases Nat.lt_trichotomy e.1 e'.1 with hlt | heq | hlt
  · have := h.disj e he e' he' hlt; omega
  · exact h.sorted.unique he he' heq
  · have := h.disj e' he' e he hlt; omega

theorem UOk.same {u : Used} (h : UOk u) {k : Nat} {v v' : Nat × RS} (he : (k, v) ∈ u) (he' : (k, v') ∈ u) :
    v = v' := by
  have := h.sorted.unique he he' rfl
  cases this; rfl

theorem Has.excl {u : Used} (h : UOk u) {i : Nat} (h1 : Has u .sent i) (h2 : Has u .acked i) : False := by
  obtain ⟨e, he, hs, h3, h4⟩ := h1
  obtain ⟨e', he', hs', h3', h4'⟩ := h2
  have := h.inj he he' h3 h4 h3' h4'
  subst this
  rw [hs] at hs'; cases hs'

theorem mark_acked {t : Tracker} (h : TOk t) (i : Nat) : t.mark i = .acked ↔ AckedAt t i := by
  unfold Tracker.mark AckedAt
  split
  · simp [*]
  · rename_i hlt
    cases hf : t.used.find? (fun e => decide (e.1 ≤ i ∧ i < e.1 + e.2.1)) with
    | none =>
      simp only [List.find?_eq_none, decide_eq_true_eq] at hf
      simp only [reduceCtorEq, false_iff]
      rintro (h' | ⟨e, he, _, h1, h2⟩)
      · exact hlt h'
      · exact hf e he ⟨h1, h2⟩
    | some e =>
      have hm := List.mem_of_find?_eq_some hf
      have hp := List.find?_some hf
      simp only [decide_eq_true_eq] at hp
      obtain ⟨o, l, s⟩ := e
      cases s with
      | acked =>
        simp only [true_iff]
        exact .inr ⟨_, hm, rfl, hp.1, hp.2⟩
      | sent =>
        simp only [reduceCtorEq, false_iff]
        rintro (h' | h')
        · exact hlt h'
        · exact Has.excl h.u ⟨_, hm, rfl, hp.1, hp.2⟩ h'

theorem mark_sent {t : Tracker} (h : TOk t) (i : Nat) : t.mark i = .sent ↔ SentAt t i := by
  unfold Tracker.mark SentAt
  split
  · rename_i hlt
    simp only [reduceCtorEq, false_iff]
    rintro ⟨e, he, _, h1, h2⟩
    have := h.low e he
    omega
  · rename_i hlt
    cases hf : t.used.find? (fun e => decide (e.1 ≤ i ∧ i < e.1 + e.2.1)) with
    | none =>
      simp only [List.find?_eq_none, decide_eq_true_eq] at hf
      simp only [reduceCtorEq, false_iff]
      rintro ⟨e, he, _, h1, h2⟩
      exact hf e he ⟨h1, h2⟩
    | some e =>
      have hm := List.mem_of_find?_eq_some hf
      have hp := List.find?_some hf
      simp only [decide_eq_true_eq] at hp
      obtain ⟨o, l, s⟩ := e
      cases s with
      | sent =>
        simp only [true_iff]
        exact ⟨_, hm, rfl, hp.1, hp.2⟩
      | acked =>
        simp only [reduceCtorEq, false_iff]
        intro h'
        exact Has.excl h.u h' ⟨_, hm, rfl, hp.1, hp.2⟩

theorem mark_unsent {t : Tracker} (h : TOk t) (i : Nat) :
    t.mark i = .unsent ↔ ¬ AckedAt t i ∧ ¬ SentAt t i := by
  rw [← mark_acked h, ← mark_sent h]
  cases t.mark i <;> simp

/-! ## `first_unmarked_range` -/

theorem firstGo_spec {u : Used} (h : UOk u) {p : Nat} (hlow : ∀ e ∈ u, p ≤ e.1) :
    p ≤ (firstGo p u).1 ∧
    (∀ i, p ≤ i → i < (firstGo p u).1 → Has u .sent i ∨ Has u .acked i) ∧
    (∀ i, (firstGo p u).1 ≤ i → (∀ l, (firstGo p u).2 = some l → i < (firstGo p u).1 + l) →
      ∀ s, ¬ Has u s i) ∧
    (∀ l, (firstGo p u).2 = some l → 0 < l ∧ ∃ s, Has u s ((firstGo p u).1 + l)) := by
  induction u generalizing p with
  | nil =>
    refine ⟨Nat.le_refl _, fun i h1 h2 => by simp only [firstGo] at h2; omega, ?_, by simp [firstGo]⟩
    rintro i _ _ s ⟨e, he, _⟩
    cases he
  | cons e u ih =>
    obtain ⟨o, l, s⟩ := e
    have hpos := h.pos _ (List.mem_cons_self ..)
    simp only at hpos
    have hmono : ∀ s i, Has u s i → Has ((o, (l, s)) :: u) s i := by
      rintro s i ⟨e, he, h'⟩; exact ⟨e, by simp [he], h'⟩
    unfold firstGo
    split
    · rename_i heq
      subst heq
      have hnext : ∀ e ∈ u, p + l ≤ e.1 := by
        intro e he
        exact h.disj _ (List.mem_cons_self ..) e (by simp [he]) (h.head_lt e he)
      obtain ⟨a, b, c, d⟩ := ih h.tail hnext
      refine ⟨by omega, fun i h1 h2 => ?_, fun i h1 h2 s' => ?_, fun l' hl => ?_⟩
      · by_cases hi : i < p + l
        · cases s with
          | sent => exact .inl ⟨_, List.mem_cons_self .., rfl, h1, hi⟩
          | acked => exact .inr ⟨_, List.mem_cons_self .., rfl, h1, hi⟩
        · rcases b i (by omega) h2 with ⟨e, he, h'⟩ | ⟨e, he, h'⟩
          · exact .inl ⟨e, by simp [he], h'⟩
          · exact .inr ⟨e, by simp [he], h'⟩
      · rintro ⟨e, he, hs, h3, h4⟩
        rcases List.mem_cons.mp he with rfl | he
        · simp only [fin] at h4; omega
        · exact c i h1 h2 s' ⟨e, he, hs, h3, h4⟩
      · obtain ⟨d1, s', e, he, h'⟩ := d l' hl
        exact ⟨d1, s', e, by simp [he], h'⟩
    · rename_i hne
      have hlo := hlow _ (List.mem_cons_self ..)
      simp only at hlo
      refine ⟨Nat.le_refl _, fun i h1 h2 => by omega, ?_, ?_⟩
      · rintro i h1 h2 s' ⟨e, he, hs, h3, h4⟩
        have := h2 _ rfl
        rcases List.mem_cons.mp he with rfl | he
        · simp only at h3; omega
        · have := h.head_lt e he
          simp only at this; omega
      · rintro l' hl
        cases hl
        refine ⟨by omega, s, _, List.mem_cons_self .., rfl, by simp only; omega, ?_⟩
        simp only [fin]; omega

theorem firstUnmarked_eq {t : Tracker} (h : TOk t) :
    t.firstUnmarked.2 = firstGo t.acked t.used ∧ TOk t.firstUnmarked.1 ∧
    t.firstUnmarked.1.acked = t.acked ∧ t.firstUnmarked.1.used = t.used := by
  unfold Tracker.firstUnmarked
  rcases h.cache with hc | hc
  · rw [hc]
    exact ⟨rfl, ⟨h.u, h.apart, h.low, h.lowA, .inr rfl⟩, rfl, rfl⟩
  · rw [hc]
    exact ⟨rfl, h, rfl, rfl⟩

/-! ## Map operations -/

theorem mem_eraseAll {u : Used} {ks : List Nat} {e : Ent} :
    e ∈ eraseAll u ks ↔ e ∈ u ∧ e.1 ∉ ks := by
  induction ks generalizing u with
  | nil => simp [eraseAll]
  | cons k ks ih =>
    simp only [eraseAll, ih, mem_erase, List.mem_cons, not_or]
    constructor
    · rintro ⟨⟨a, b⟩, c⟩; exact ⟨a, b, c⟩
    · rintro ⟨a, b, c⟩; exact ⟨⟨a, b⟩, c⟩

theorem sorted_eraseAll {u : Used} (h : Sorted u) (ks : List Nat) : Sorted (eraseAll u ks) := by
  induction ks generalizing u with
  | nil => exact h
  | cons k ks ih => exact ih (h.erase k)

theorem mem_keysIn {u : Used} {a b k : Nat} : k ∈ keysIn u a b ↔ (∃ v, (k, v) ∈ u) ∧ a ≤ k ∧ k < b := by
  simp only [keysIn, List.mem_map, List.mem_filter, decide_eq_true_eq]
  constructor
  · rintro ⟨⟨k', v⟩, ⟨h1, h2⟩, rfl⟩; exact ⟨⟨v, h1⟩, h2⟩
  · rintro ⟨⟨v, h1⟩, h2⟩; exact ⟨(k, v), ⟨h1, h2⟩, rfl⟩

theorem sorted_keysIn {u : Used} (h : Sorted u) (a b : Nat) : (keysIn u a b).Pairwise (· < ·) := by
  unfold keysIn
  exact (List.pairwise_map.mpr (h.filter _))

theorem below_last {u : Used} (h : Sorted u) {k : Nat} {e : Ent} (hl : (u.below k).getLast? = some e) :
    e ∈ u ∧ e.1 < k ∧ ∀ x ∈ u, x.1 < k → x.1 ≤ e.1 := by
  obtain ⟨l, hl⟩ := List.getLast?_eq_some_iff.mp hl
  have hm : e ∈ u.below k := by rw [hl]; simp
  rw [mem_below] at hm
  refine ⟨hm.1, hm.2, fun x hx hxk => ?_⟩
  have hx' : x ∈ u.below k := mem_below.mpr ⟨hx, hxk⟩
  have hs : Sorted (u.below k) := h.filter _
  rw [hl] at hx' hs
  rw [List.mem_append, List.mem_singleton] at hx'
  rcases hx' with hx' | rfl
  · have := (sorted_append.mp hs).2.2 x hx' e (by simp)
    omega
  · exact Nat.le_refl _

theorem below_none {u : Used} {k : Nat} (hl : (u.below k).getLast? = none) : ∀ x ∈ u, k ≤ x.1 := by
  rw [List.getLast?_eq_none_iff] at hl
  intro x hx
  by_contra hlt
  have : x ∈ u.below k := mem_below.mpr ⟨hx, by omega⟩
  rw [hl] at this; cases this

/-! ## `mark_sent` -/

/-- What `fillSent` needs: everything starting in the new range is listed in `ks` or is a leftover
entry at the very start of the range. -/
structure FillPre (u : Used) (off len : Nat) (ks : List Nat) : Prop where
  plen : 0 < len
  before : ∀ e ∈ u, e.1 < off → fin e ≤ off
  within : ∀ e ∈ u, off ≤ e.1 → e.1 < off + len →
    (e.1 = off ∧ e.2.2 = .sent ∧ fin e ≤ off + len) ∨ e.1 ∈ ks
  keys : ∀ k ∈ ks, (∃ v, (k, v) ∈ u) ∧ off ≤ k ∧ k < off + len
  sorted : ks.Pairwise (· < ·)

theorem fillSent_ok {ks : List Nat} : ∀ {u : Used} {off len : Nat}, UOk u → FillPre u off len ks →
    ∃ u', fillSent u off len ks = .ok u' ∧ UOk u' ∧
      (∀ e, e.2.2 = .acked → (e ∈ u' ↔ e ∈ u)) ∧
      (∀ e ∈ u', e ∈ u ∨ off ≤ e.1) ∧
      (∀ i, Has u' .sent i ↔ Has u .sent i ∨ (off ≤ i ∧ i < off + len ∧ ¬ Has u .acked i)) := by
  induction ks with
  | nil =>
    intro u off len hu hp
    have hpos := hp.plen
    have hnone : ∀ e ∈ u, e.1 ≠ off → fin e ≤ off ∨ off + len ≤ e.1 := by
      intro e he hne
      by_cases h1 : e.1 < off
      · exact .inl (hp.before e he h1)
      · right
        by_contra h2
        rcases hp.within e he (by omega) (by omega) with h3 | h3
        · exact hne h3.1
        · cases h3
    have hstale : ∀ e ∈ u, e.1 = off → e.2.2 = .sent ∧ fin e ≤ off + len := by
      intro e he heq
      rcases hp.within e he (by omega) (by omega) with h3 | h3
      · exact ⟨h3.2.1, h3.2.2⟩
      · cases h3
    refine ⟨_, rfl, ⟨hu.sorted.insert _ _, ?_, ?_⟩, ?_, ?_, ?_⟩
    · intro e he
      rcases mem_insert.mp he with rfl | ⟨he, _⟩
      · exact hpos
      · exact hu.pos e he
    · intro e he e' he' hlt
      rcases mem_insert.mp he with rfl | ⟨he, hne⟩ <;> rcases mem_insert.mp he' with rfl | ⟨he', hne'⟩
      · simp only at hlt; omega
      · simp only at hlt
        have := hnone e' he' hne'
        simp only [fin] at *
        have := hu.pos e' he'
        omega
      · simp only at hlt ⊢
        exact hp.before e he hlt
      · exact hu.disj e he e' he' hlt
    · intro e hs
      rw [mem_insert]
      constructor
      · rintro (rfl | ⟨he, _⟩)
        · cases hs
        · exact he
      · intro he
        refine .inr ⟨he, fun heq => ?_⟩
        have := (hstale e he heq).1
        rw [hs] at this; cases this
    · intro e he
      rcases mem_insert.mp he with rfl | ⟨he, _⟩
      · exact .inr (Nat.le_refl _)
      · exact .inl he
    · intro i
      constructor
      · rintro ⟨e, he, hs, h1, h2⟩
        rcases mem_insert.mp he with rfl | ⟨he, _⟩
        · refine .inr ⟨h1, h2, ?_⟩
          rintro ⟨e', he', hs', h1', h2'⟩
          by_cases heq : e'.1 = off
          · have := (hstale e' he' heq).1
            rw [hs'] at this; cases this
          · simp only [fin] at h1 h2
            have := hnone e' he' heq
            omega
        · exact .inl ⟨e, he, hs, h1, h2⟩
      · rintro (⟨e, he, hs, h1, h2⟩ | ⟨h1, h2, _⟩)
        · by_cases heq : e.1 = off
          · have := (hstale e he heq).2
            exact ⟨(off, (len, .sent)), mem_insert.mpr (.inl rfl), rfl, by simp only; omega,
              by simp only [fin] at *; omega⟩
          · exact ⟨e, mem_insert.mpr (.inr ⟨he, heq⟩), hs, h1, h2⟩
        · exact ⟨(off, (len, .sent)), mem_insert.mpr (.inl rfl), rfl, h1, h2⟩
  | cons k ks ih =>
    intro u off len hu hp
    obtain ⟨⟨⟨l, s⟩, hk⟩, hk1, hk2⟩ := hp.keys k (by simp)
    have hfind : u.find k = some (l, s) := (hu.sorted.find_eq_some).mpr hk
    have hlpos := hu.pos _ hk
    simp only at hlpos
    have hks := List.pairwise_cons.mp hp.sorted
    have hpos := hp.plen
    -- nothing strictly between the start and the first key
    have hgap : ∀ e ∈ u, off < e.1 → e.1 < k → False := by
      intro e he h1 h2
      rcases hp.within e he (by omega) (by omega) with h3 | h3
      · omega
      · rcases List.mem_cons.mp h3 with h3 | h3
        · omega
        · have := hks.1 _ h3; omega
    unfold fillSent
    rw [hfind]
    cases s with
    | acked =>
      simp only
      rw [if_neg (by omega)]
      -- the map with the gap before `k` filled
      have key : ∃ u1, (if k - off > 0 then u.insert off (k - off, RS.sent) else u) = u1 ∧ UOk u1 ∧
          (∀ e, e.2.2 = .acked → (e ∈ u1 ↔ e ∈ u)) ∧
          (∀ e ∈ u1, e ∈ u ∨ off ≤ e.1) ∧
          (∀ e ∈ u1, e.1 < k + l → fin e ≤ k + l) ∧
          (∀ e, k + l ≤ e.1 → (e ∈ u1 ↔ e ∈ u)) ∧
          (∀ i, Has u1 .sent i ↔ Has u .sent i ∨ (off ≤ i ∧ i < k)) := by
        have hend : ∀ e ∈ u, e.1 < k + l → fin e ≤ k + l := by
          intro e he hlt
          rcases Nat.lt_trichotomy e.1 k with h1 | h1 | h1
          · have := hu.disj e he _ hk h1
            simp only at this; omega
          · have := hu.sorted.unique he hk h1
            subst this
            simp [fin]
          · have := hu.disj _ hk e he h1
            simp only [fin] at this; omega
        by_cases hc : k - off > 0
        · rw [if_pos hc]
          have hat : ∀ e ∈ u, e.1 = off → e.2.2 = .sent ∧ fin e ≤ k := by
            intro e he heq
            refine ⟨?_, hu.disj e he _ hk (by simp only; omega)⟩
            rcases hp.within e he (by omega) (by omega) with h3 | h3
            · exact h3.2.1
            · rcases List.mem_cons.mp h3 with h3 | h3
              · omega
              · have := hks.1 _ h3; omega
          refine ⟨_, rfl, ⟨hu.sorted.insert _ _, ?_, ?_⟩, ?_, ?_, ?_, ?_, ?_⟩
          · intro e he
            rcases mem_insert.mp he with rfl | ⟨he, _⟩
            · exact hc
            · exact hu.pos e he
          · intro e he e' he' hlt
            rcases mem_insert.mp he with rfl | ⟨he, hne⟩ <;>
              rcases mem_insert.mp he' with rfl | ⟨he', hne'⟩
            · simp only at hlt; omega
            · simp only [fin] at hlt ⊢
              by_contra hcon
              exact hgap e' he' hlt (by omega)
            · exact hp.before e he hlt
            · exact hu.disj e he e' he' hlt
          · intro e hs
            rw [mem_insert]
            constructor
            · rintro (rfl | ⟨he, _⟩)
              · cases hs
              · exact he
            · intro he
              refine .inr ⟨he, fun heq => ?_⟩
              have := (hat e he heq).1
              rw [hs] at this; cases this
          · intro e he
            rcases mem_insert.mp he with rfl | ⟨he, _⟩
            · exact .inr (Nat.le_refl _)
            · exact .inl he
          · intro e he hlt
            rcases mem_insert.mp he with rfl | ⟨he, _⟩
            · simp only [fin]; omega
            · exact hend e he hlt
          · intro e hle
            rw [mem_insert]
            constructor
            · rintro (rfl | ⟨he, _⟩)
              · simp only at hle; omega
              · exact he
            · intro he; exact .inr ⟨he, by omega⟩
          · intro i
            constructor
            · rintro ⟨e, he, hs, h1, h2⟩
              rcases mem_insert.mp he with rfl | ⟨he, _⟩
              · simp only [fin] at h1 h2
                exact .inr ⟨h1, by omega⟩
              · exact .inl ⟨e, he, hs, h1, h2⟩
            · rintro (⟨e, he, hs, h1, h2⟩ | ⟨h1, h2⟩)
              · by_cases heq : e.1 = off
                · have := (hat e he heq).2
                  exact ⟨_, mem_insert.mpr (.inl rfl), rfl, by simp only; omega,
                    by simp only [fin] at *; omega⟩
                · exact ⟨e, mem_insert.mpr (.inr ⟨he, heq⟩), hs, h1, h2⟩
              · exact ⟨_, mem_insert.mpr (.inl rfl), rfl, by simp only; omega,
                  by simp only [fin] at *; omega⟩
        · rw [if_neg hc]
          refine ⟨u, rfl, hu, fun _ _ => Iff.rfl, fun e he => .inl he, hend, fun _ _ => Iff.rfl, ?_⟩
          intro i
          constructor
          · exact .inl
          · rintro (h | h)
            · exact h
            · omega
      obtain ⟨u1, e1, g1, g2, g3, g4, g5, g6⟩ := key
      rw [e1]
      have hA : ∀ i, Has u1 .acked i ↔ Has u .acked i := by
        intro i
        constructor
        · rintro ⟨e, he, hs, h'⟩; exact ⟨e, (g2 e hs).mp he, hs, h'⟩
        · rintro ⟨e, he, hs, h'⟩; exact ⟨e, (g2 e hs).mpr he, hs, h'⟩
      have hkA : ∀ i, k ≤ i → i < k + l → Has u .acked i := fun i h1 h2 => ⟨_, hk, rfl, h1, h2⟩
      have hnA : ∀ i, off ≤ i → i < k → ¬ Has u .acked i := by
        rintro i h1 h2 ⟨e, he, hs, h3, h4⟩
        rcases Nat.lt_trichotomy e.1 off with h5 | h5 | h5
        · have := hp.before e he h5; omega
        · rcases hp.within e he (by omega) (by omega) with h6 | h6
          · rw [hs] at h6; exact absurd h6.2.1 (by simp)
          · rcases List.mem_cons.mp h6 with h6 | h6
            · omega
            · have := hks.1 _ h6; omega
        · exact hgap e he h5 (by omega)
      by_cases hz : len - (k - off + l) = 0
      · rw [if_pos hz]
        refine ⟨u1, rfl, g1, g2, g3, fun i => ?_⟩
        rw [g6]
        constructor
        · rintro (h | ⟨h1, h2⟩)
          · exact .inl h
          · exact .inr ⟨h1, by omega, hnA i h1 h2⟩
        · rintro (h | ⟨h1, h2, h3⟩)
          · exact .inl h
          · right
            refine ⟨h1, ?_⟩
            by_contra hge
            exact h3 (hkA i (by omega) (by omega))
      · rw [if_neg hz]
        have hoff : off + (k - off + l) = k + l := by omega
        rw [hoff]
        have hpre : FillPre u1 (k + l) (len - (k - off + l)) ks := by
          refine ⟨by omega, g4, ?_, ?_, hks.2⟩
          · intro e he h1 h2
            have he' := (g5 e h1).mp he
            rcases hp.within e he' (by omega) (by omega) with h3 | h3
            · omega
            · rcases List.mem_cons.mp h3 with h3 | h3
              · omega
              · exact .inr h3
          · intro k' hk'
            obtain ⟨⟨v, hv⟩, h1, h2⟩ := hp.keys k' (by simp [hk'])
            have hlt := hks.1 k' hk'
            have hle := hu.disj _ hk _ hv hlt
            simp only [fin] at hle
            exact ⟨⟨v, (g5 _ hle).mpr hv⟩, hle, by omega⟩
        obtain ⟨u', r1, r2, r3, r4, r5⟩ := ih g1 hpre
        refine ⟨u', r1, r2, fun e hs => (r3 e hs).trans (g2 e hs), fun e he => ?_, fun i => ?_⟩
        · rcases r4 e he with h | h
          · exact g3 e h
          · exact .inr (by omega)
        · rw [r5, g6, hA]
          constructor
          · rintro ((h | ⟨h1, h2⟩) | ⟨h1, h2, h3⟩)
            · exact .inl h
            · exact .inr ⟨h1, by omega, hnA i h1 h2⟩
            · exact .inr ⟨by omega, by omega, h3⟩
          · rintro (h | ⟨h1, h2, h3⟩)
            · exact .inl (.inl h)
            · by_cases h4 : i < k
              · exact .inl (.inr ⟨h1, h4⟩)
              · refine .inr ⟨?_, by omega, h3⟩
                by_contra h5
                exact h3 (hkA i (by omega) (by omega))
    | sent =>
      simp only
      -- the map without `k`, unless `k` starts the new range
      have key : ∃ u1, (if k ≠ off then u.erase k else u) = u1 ∧ UOk u1 ∧
          (∀ e ∈ u1, e ∈ u) ∧
          (∀ e ∈ u, e.1 = k ∧ k ≠ off ∨ e ∈ u1) := by
        by_cases hc : k ≠ off
        · rw [if_pos hc]
          refine ⟨_, rfl, ⟨hu.sorted.erase _, fun e he => hu.pos e (mem_erase.mp he).1,
            fun e he e' he' => hu.disj e (mem_erase.mp he).1 e' (mem_erase.mp he').1⟩,
            fun e he => (mem_erase.mp he).1, fun e he => ?_⟩
          by_cases h : e.1 = k
          · exact .inl ⟨h, hc⟩
          · exact .inr (mem_erase.mpr ⟨he, h⟩)
        · rw [if_neg hc]
          exact ⟨u, rfl, hu, fun e he => he, fun e he => .inr he⟩
      obtain ⟨u1, e1, g1, g2, g3⟩ := key
      rw [e1]
      generalize hL : len + (k + l - (off + len)) = L
      have hgt : k + l ≤ off + L := by omega
      have hge : off + len ≤ off + L := by omega
      have hor : L = len ∨ off + L = k + l := by omega
      have hpre : FillPre u1 off L ks := by
        refine ⟨by omega, fun e he => hp.before e (g2 e he), ?_, ?_, hks.2⟩
        · intro e he h1 h2
          have he' := g2 e he
          by_cases h3 : e.1 < off + len
          · rcases hp.within e he' h1 h3 with h4 | h4
            · exact .inl ⟨h4.1, h4.2.1, by omega⟩
            · rcases List.mem_cons.mp h4 with h4 | h4
              · have := hu.sorted.unique he' hk h4
                subst this
                by_cases hko : k = off
                · exact .inl ⟨hko, rfl, by simp only [fin]; omega⟩
                · exfalso
                  rw [if_pos hko] at e1
                  rw [← e1] at he
                  exact (mem_erase.mp he).2 rfl
              · exact .inr h4
          · have := hu.disj _ hk e he' (by simp only; omega)
            simp only [fin] at this
            omega
        · intro k' hk'
          obtain ⟨⟨v, hv⟩, h1, h2⟩ := hp.keys k' (by simp [hk'])
          have hlt := hks.1 k' hk'
          refine ⟨⟨v, ?_⟩, h1, by omega⟩
          rcases g3 _ hv with h | h
          · simp only at h; omega
          · exact h
      obtain ⟨u', r1, r2, r3, r4, r5⟩ := ih g1 hpre
      have hA' : ∀ e, e.2.2 = .acked → (e ∈ u1 ↔ e ∈ u) := by
        intro e hs
        refine ⟨g2 e, fun he => ?_⟩
        rcases g3 e he with ⟨h, _⟩ | h
        · have := hu.sorted.unique he hk h
          subst this
          cases hs
        · exact h
      have hA : ∀ i, Has u1 .acked i ↔ Has u .acked i := by
        intro i
        constructor
        · rintro ⟨e, he, hs, h'⟩; exact ⟨e, (hA' e hs).mp he, hs, h'⟩
        · rintro ⟨e, he, hs, h'⟩; exact ⟨e, (hA' e hs).mpr he, hs, h'⟩
      refine ⟨u', r1, r2, fun e hs => (r3 e hs).trans (hA' e hs), fun e he => ?_, fun i => ?_⟩
      · rcases r4 e he with h | h
        · exact .inl (g2 e h)
        · exact .inr h
      · rw [r5, hA]
        have hkS : ∀ j, k ≤ j → j < k + l → Has u .sent j ∧ ¬ Has u .acked j := by
          intro j h1 h2
          have h3 : Has u .sent j := ⟨_, hk, rfl, h1, h2⟩
          exact ⟨h3, fun h4 => Has.excl hu h3 h4⟩
        constructor
        · rintro (⟨e, he, hs, h'⟩ | ⟨h1, h2, h3⟩)
          · exact .inl ⟨e, g2 e he, hs, h'⟩
          · by_cases h4 : i < off + len
            · exact .inr ⟨h1, h4, h3⟩
            · left
              rcases hor with h5 | h5
              · omega
              · exact (hkS i (by omega) (by omega)).1
        · rintro (⟨e, he, hs, h1, h2⟩ | ⟨h1, h2, h3⟩)
          · rcases g3 e he with ⟨h, _⟩ | h
            · have := hu.sorted.unique he hk h
              subst this
              simp only [fin] at h1 h2
              exact .inr ⟨by omega, by omega, (hkS i h1 h2).2⟩
            · exact .inl ⟨e, h, hs, h1, h2⟩
          · exact .inr ⟨h1, by omega, h3⟩

/-- The result of `mergeNext`: the map without an adjacent following sent range. -/
theorem mergeNext_spec {u : Used} (hu : UOk u) (stop : Nat) :
    ∃ u1 x, mergeNext u stop = (u1, x) ∧ UOk u1 ∧ (∀ e ∈ u1, e ∈ u) ∧
      ((x = 0 ∧ u1 = u) ∨ (0 < x ∧ (stop, (x, .sent)) ∈ u ∧ ∀ e ∈ u, e.1 = stop ∨ e ∈ u1) ∧
        ∀ e ∈ u1, e.1 ≠ stop) := by
  unfold mergeNext
  cases hf : u.find stop with
  | none => exact ⟨u, 0, rfl, hu, fun e he => he, .inl ⟨rfl, rfl⟩⟩
  | some v =>
    obtain ⟨x, s⟩ := v
    have hm := (hu.sorted.find_eq_some).mp hf
    cases s with
    | acked => exact ⟨u, 0, rfl, hu, fun e he => he, .inl ⟨rfl, rfl⟩⟩
    | sent =>
      refine ⟨_, x, rfl, ⟨hu.sorted.erase _, fun e he => hu.pos e (mem_erase.mp he).1,
        fun e he e' he' => hu.disj e (mem_erase.mp he).1 e' (mem_erase.mp he').1⟩,
        fun e he => (mem_erase.mp he).1, .inr ⟨⟨hu.pos _ hm, hm, fun e he => ?_⟩,
        fun e he => (mem_erase.mp he).2⟩⟩
      by_cases h : e.1 = stop
      · exact .inl h
      · exact .inr (mem_erase.mpr ⟨he, h⟩)

theorem markSent_ok {t : Tracker} (h : TOk t) (o l : Nat) :
    ∃ t', t.markSent o l = .ok t' ∧ TOk t' ∧ t'.acked = t.acked ∧
      (∀ i, AckedAt t' i ↔ AckedAt t i) ∧
      (∀ i, SentAt t' i ↔ SentAt t i ∨ (o ≤ i ∧ i < o + l ∧ ¬ AckedAt t i)) := by
  unfold Tracker.markSent
  simp only
  by_cases hz : o + l - max t.acked o = 0
  · rw [if_pos hz]
    refine ⟨t, rfl, h, rfl, fun _ => Iff.rfl, fun i => ⟨.inl, ?_⟩⟩
    rintro (h' | ⟨h1, h2, h3⟩)
    · exact h'
    · exact absurd (.inl (by omega)) h3
  rw [if_neg hz]
  generalize hoff : max t.acked o = off at *
  generalize hlen : o + l - off = len at *
  have hstop : off + len = o + l := by omega
  rw [← hstop]
  have hpos : 0 < len := by omega
  obtain ⟨u1, x, hm, hu1, hsub, hx⟩ := mergeNext_spec h.u (off + len)
  rw [hm]
  simp only
  -- facts about the map after merging
  have hA1 : ∀ e, e.2.2 = .acked → (e ∈ u1 ↔ e ∈ t.used) := by
    intro e hs
    refine ⟨hsub e, fun he => ?_⟩
    rcases hx with ⟨_, rfl⟩ | ⟨⟨h1, h2, h3⟩, _⟩
    · exact he
    · rcases h3 e he with h4 | h4
      · have := h.u.sorted.unique he h2 h4
        subst this
        cases hs
      · exact h4
  have hA1' : ∀ i, Has u1 .acked i ↔ Has t.used .acked i := by
    intro i
    constructor
    · rintro ⟨e, he, hs, h'⟩; exact ⟨e, (hA1 e hs).mp he, hs, h'⟩
    · rintro ⟨e, he, hs, h'⟩; exact ⟨e, (hA1 e hs).mpr he, hs, h'⟩
  have hS1 : ∀ i, Has t.used .sent i ↔
      Has u1 .sent i ∨ (off + len ≤ i ∧ i < off + (len + x)) := by
    intro i
    rcases hx with ⟨rfl, rfl⟩ | ⟨⟨h1, h2, h3⟩, _⟩
    · constructor
      · exact .inl
      · rintro (h' | h')
        · exact h'
        · omega
    · constructor
      · rintro ⟨e, he, hs, h4, h5⟩
        rcases h3 e he with h6 | h6
        · have := h.u.sorted.unique he h2 h6
          subst this
          simp only [fin] at h4 h5
          exact .inr ⟨h4, by omega⟩
        · exact .inl ⟨e, h6, hs, h4, h5⟩
      · rintro (⟨e, he, hs, h'⟩ | ⟨h4, h5⟩)
        · exact ⟨e, hsub e he, hs, h'⟩
        · exact ⟨_, h2, rfl, h4, by simp only [fin]; omega⟩
  -- entries after the new range
  have hafter : ∀ e ∈ u1, off + len ≤ e.1 → off + (len + x) ≤ e.1 := by
    intro e he hle
    rcases hx with ⟨rfl, rfl⟩ | ⟨⟨h1, h2, h3⟩, h4⟩
    · omega
    · have hne := h4 e he
      have := h.u.disj _ h2 e (hsub e he) (by simp only; omega)
      simp only [fin] at this
      omega
  have hends : ∀ e ∈ u1, 0 < x → e.1 < off + len → fin e ≤ off + len := by
    intro e he hx0 hlt
    rcases hx with ⟨rfl, rfl⟩ | ⟨⟨h1, h2, h3⟩, h4⟩
    · omega
    · exact h.u.disj e (hsub e he) _ h2 hlt
  have hkeysIn : ∀ k, k ∈ keysIn t.used off (off + len) ↔
      (∃ v, (k, v) ∈ u1) ∧ off ≤ k ∧ k < off + len := by
    intro k
    rw [mem_keysIn]
    constructor
    · rintro ⟨⟨v, hv⟩, h1, h2⟩
      refine ⟨⟨v, ?_⟩, h1, h2⟩
      rcases hx with ⟨_, rfl⟩ | ⟨⟨_, _, h3⟩, _⟩
      · exact hv
      · rcases h3 _ hv with h4 | h4
        · simp only at h4; omega
        · exact h4
    · rintro ⟨⟨v, hv⟩, h1, h2⟩
      exact ⟨⟨v, hsub _ hv⟩, h1, h2⟩
  -- what remains to be shown of the resulting map
  have fini : ∀ u', UOk u' → (∀ e, e.2.2 = .acked → (e ∈ u' ↔ e ∈ u1)) →
      (∀ e ∈ u', t.acked ≤ e.1) →
      (∀ i, Has u' .sent i ↔ Has u1 .sent i ∨
        (off ≤ i ∧ i < off + (len + x) ∧ ¬ Has u1 .acked i)) →
      TOk { t with used := u', cache := none } ∧
        (∀ i, AckedAt { t with used := u', cache := none } i ↔ AckedAt t i) ∧
        (∀ i, SentAt { t with used := u', cache := none } i ↔
          SentAt t i ∨ (o ≤ i ∧ i < off + len ∧ ¬ AckedAt t i)) := by
    intro u' k1 k2 k3 k4
    have kA : ∀ e, e.2.2 = .acked → (e ∈ u' ↔ e ∈ t.used) := fun e hs => (k2 e hs).trans (hA1 e hs)
    have kA' : ∀ i, Has u' .acked i ↔ Has t.used .acked i := by
      intro i
      constructor
      · rintro ⟨e, he, hs, h'⟩; exact ⟨e, (kA e hs).mp he, hs, h'⟩
      · rintro ⟨e, he, hs, h'⟩; exact ⟨e, (kA e hs).mpr he, hs, h'⟩
    refine ⟨⟨k1, ?_, k3, ?_, .inl rfl⟩, ?_, ?_⟩
    · intro e he e' he' hs hs'
      exact h.apart e ((kA e hs).mp he) e' ((kA e' hs').mp he') hs hs'
    · intro e he hs
      exact h.lowA e ((kA e hs).mp he) hs
    · intro i
      simp only [AckedAt, kA']
    · intro i
      simp only [SentAt, AckedAt]
      rw [k4, hS1, hA1']
      constructor
      · rintro (h' | ⟨h1, h2, h3⟩)
        · exact .inl (.inl h')
        · by_cases h4 : i < off + len
          · refine .inr ⟨by omega, by omega, ?_⟩
            rintro (h5 | h5)
            · omega
            · exact h3 h5
          · exact .inl (.inr ⟨by omega, h2⟩)
      · rintro ((h' | ⟨h1, h2⟩) | ⟨h1, h2, h3⟩)
        · exact .inl h'
        · refine .inr ⟨by omega, h2, fun h3 => ?_⟩
          exact Has.excl h.u ((hS1 i).mpr (.inr ⟨h1, h2⟩)) h3
        · rw [not_or] at h3
          exact .inr ⟨by omega, by omega, h3.2⟩
  -- the fill, given its start
  have fill : ∀ st len2 : Nat, t.acked ≤ st → st + len2 = off + (len + x) → FillPre u1 st len2
      (keysIn t.used off (off + len)) →
      (∀ i, (Has u1 .sent i ∨ (st ≤ i ∧ i < st + len2 ∧ ¬ Has u1 .acked i)) ↔
        (Has u1 .sent i ∨ (off ≤ i ∧ i < off + (len + x) ∧ ¬ Has u1 .acked i))) →
      ∃ t', (match fillSent u1 st len2 (keysIn t.used off (off + len)) with
        | .ok u' => .ok { t with used := u', cache := none }
        | .error e => .error e) = (.ok t' : Except Err Tracker) ∧ TOk t' ∧ t'.acked = t.acked ∧
        (∀ i, AckedAt t' i ↔ AckedAt t i) ∧
        (∀ i, SentAt t' i ↔ SentAt t i ∨ (o ≤ i ∧ i < off + len ∧ ¬ AckedAt t i)) := by
    intro st len2 hst hsum hpre hiff
    obtain ⟨u', r1, r2, r3, r4, r5⟩ := fillSent_ok hu1 hpre
    rw [r1]
    obtain ⟨a, b, c⟩ := fini u' r2 r3 (fun e he => by
      rcases r4 e he with h' | h'
      · exact h.low e (hsub e h')
      · omega) (fun i => (r5 i).trans (hiff i))
    exact ⟨_, rfl, a, rfl, b, c⟩
  -- nothing ends inside the new range from before
  have plain : (∀ e ∈ u1, e.1 < off → fin e ≤ off) →
      FillPre u1 off (len + x) (keysIn t.used off (off + len)) := by
    intro hb
    refine ⟨by omega, hb, fun e he h1 h2 => ?_, fun k hk => ?_, sorted_keysIn h.u.sorted _ _⟩
    · right
      rw [hkeysIn]
      refine ⟨⟨e.2, he⟩, h1, ?_⟩
      by_contra h3
      have := hafter e he (by omega)
      omega
    · obtain ⟨h1, h2, h3⟩ := (hkeysIn k).mp hk
      exact ⟨h1, h2, by omega⟩
  cases hprev : (u1.below off).getLast? with
  | none =>
    have hn := below_none hprev
    exact fill off (len + x) (by omega) rfl (plain (fun e he hlt => by
      have := hn e he; omega)) (fun i => Iff.rfl)
  | some p =>
    obtain ⟨po, pl, ps⟩ := p
    obtain ⟨p1, p2, p3⟩ := below_last hu1.sorted hprev
    simp only at p2 p3 ⊢
    have hbelow : ∀ e ∈ u1, e.1 < off → e.1 = po ∨ fin e ≤ po := by
      intro e he hlt
      rcases Nat.lt_or_ge e.1 po with h1 | h1
      · exact .inr (hu1.disj e he _ p1 h1)
      · exact .inl (by have := p3 e he hlt; omega)
    have hpo : ∀ e ∈ u1, e.1 = po → fin e = po + pl := by
      intro e he heq
      have := hu1.sorted.unique he p1 heq
      subst this
      rfl
    by_cases hov : po + pl ≥ off
    rotate_left
    · rw [if_neg hov]
      refine fill off (len + x) (by omega) rfl (plain (fun e he hlt => ?_)) (fun i => Iff.rfl)
      rcases hbelow e he hlt with h1 | h1
      · have := hpo e he h1; omega
      · omega
    rw [if_pos hov]
    -- entries starting in the new range start after `po`'s end
    have hin : ∀ e ∈ u1, off ≤ e.1 → po + pl ≤ e.1 := by
      intro e he hle
      exact hu1.disj _ p1 e he (by simp only; omega)
    by_cases hl2 : len + x - (po + pl - off) = 0
    · rw [if_pos hl2]
      have hx0 : x = 0 := by
        rcases Nat.eq_zero_or_pos x with h1 | h1
        · exact h1
        · have := hends _ p1 h1 (by simp only; omega)
          simp only [fin] at this
          omega
      obtain ⟨a, b, c⟩ := fini u1 hu1 (fun _ _ => Iff.rfl) (fun e he => h.low e (hsub e he)) (by
        intro i
        refine ⟨.inl, ?_⟩
        rintro (h' | ⟨h1, h2, h3⟩)
        · exact h'
        · cases ps with
          | sent => exact ⟨_, p1, rfl, by simp only; omega, by simp only [fin]; omega⟩
          | acked => exact absurd ⟨_, p1, rfl, by simp only; omega, by simp only [fin]; omega⟩ h3)
      exact ⟨_, rfl, a, rfl, b, c⟩
    rw [if_neg hl2]
    have hlow := h.low _ (hsub _ p1)
    simp only at hlow
    cases ps with
    | acked =>
      simp only
      refine fill (off + (po + pl - off)) (len + x - (po + pl - off)) (by omega) (by omega)
        ⟨by omega, ?_, ?_, ?_, sorted_keysIn h.u.sorted _ _⟩ ?_
      · intro e he hlt
        by_cases h1 : e.1 < off
        · rcases hbelow e he h1 with h2 | h2
          · have := hpo e he h2; omega
          · omega
        · have := hin e he (by omega); omega
      · intro e he h1 h2
        right
        rw [hkeysIn]
        refine ⟨⟨e.2, he⟩, by omega, ?_⟩
        by_contra h3
        have := hafter e he (by omega)
        omega
      · intro k hk
        obtain ⟨⟨v, hv⟩, h2, h3⟩ := (hkeysIn k).mp hk
        have := hin _ hv h2
        exact ⟨⟨v, hv⟩, by simp only at this; omega, by omega⟩
      · intro i
        constructor
        · rintro (h' | ⟨h1, h2, h3⟩)
          · exact .inl h'
          · exact .inr ⟨by omega, by omega, h3⟩
        · rintro (h' | ⟨h1, h2, h3⟩)
          · exact .inl h'
          · refine .inr ⟨?_, by omega, h3⟩
            by_contra h4
            exact h3 ⟨_, p1, rfl, by simp only; omega, by simp only [fin]; omega⟩
    | sent =>
      simp only
      refine fill po (len + x - (po + pl - off) + pl) (by omega) (by omega)
        ⟨by omega, ?_, ?_, ?_, sorted_keysIn h.u.sorted _ _⟩ ?_
      · intro e he hlt
        rcases hbelow e he (by omega) with h2 | h2
        · omega
        · exact h2
      · intro e he h1 h2
        by_cases h3 : e.1 < off
        · have h4 : e.1 = po := by have := p3 e he h3; omega
          have h5 := hpo e he h4
          have h6 := hu1.sorted.unique he p1 h4
          subst h6
          exact .inl ⟨rfl, rfl, by omega⟩
        · right
          rw [hkeysIn]
          refine ⟨⟨e.2, he⟩, by omega, ?_⟩
          by_contra h4
          have := hafter e he (by omega)
          omega
      · intro k hk
        obtain ⟨⟨v, hv⟩, h2, h3⟩ := (hkeysIn k).mp hk
        exact ⟨⟨v, hv⟩, by omega, by omega⟩
      · intro i
        constructor
        · rintro (h' | ⟨h1, h2, h3⟩)
          · exact .inl h'
          · by_cases h4 : i < po + pl
            · exact .inl ⟨_, p1, rfl, by simp only; omega, by simp only [fin]; omega⟩
            · exact .inr ⟨by omega, by omega, h3⟩
        · rintro (h' | ⟨h1, h2, h3⟩)
          · exact .inl h'
          · exact .inr ⟨by omega, by omega, h3⟩

/-! ## `mark_acked` -/

theorem coalesce_ok {u : Used} {A : Nat} (hu : UOk u) (ha : Apart u) :
    UOk (coalesce A u).2 ∧ Apart (coalesce A u).2 ∧ A ≤ (coalesce A u).1 ∧
    (∀ e ∈ (coalesce A u).2, (coalesce A u).1 ≤ e.1) ∧
    (∀ e ∈ (coalesce A u).2, e.2.2 = .acked → (coalesce A u).1 < e.1) ∧
    (∀ i, (i < (coalesce A u).1 ∨ Has (coalesce A u).2 .acked i) ↔ (i < A ∨ Has u .acked i)) ∧
    (∀ i, Has (coalesce A u).2 .sent i ↔ Has u .sent i ∧ A ≤ i) := by
  induction u with
  | nil =>
    refine ⟨hu, ha, Nat.le_refl _, by simp [coalesce], by simp [coalesce], fun i => Iff.rfl, fun i => ?_⟩
    constructor
    · rintro ⟨e, he, _⟩; cases he
    · rintro ⟨⟨e, he, _⟩, _⟩; cases he
  | cons e u ih =>
    obtain ⟨o, l, s⟩ := e
    have hpos := hu.pos _ (List.mem_cons_self ..)
    simp only at hpos
    have hnext : ∀ e ∈ u, o + l ≤ e.1 := fun e he =>
      hu.disj _ (List.mem_cons_self ..) e (by simp [he]) (hu.head_lt e he)
    have hat : Apart u := fun e he e' he' => ha e (by simp [he]) e' (by simp [he'])
    have hcons : ∀ s' i, Has ((o, (l, s)) :: u) s' i ↔ (s = s' ∧ o ≤ i ∧ i < o + l) ∨ Has u s' i := by
      intro s' i
      constructor
      · rintro ⟨e, he, h1, h2, h3⟩
        rcases List.mem_cons.mp he with rfl | he
        · exact .inl ⟨h1, h2, h3⟩
        · exact .inr ⟨e, he, h1, h2, h3⟩
      · rintro (⟨h1, h2, h3⟩ | ⟨e, he, h'⟩)
        · exact ⟨_, List.mem_cons_self .., h1, h2, h3⟩
        · exact ⟨e, by simp [he], h'⟩
    have hlow : ∀ s' i, Has u s' i → o + l ≤ i := by
      rintro s' i ⟨e, he, _, h1, _⟩
      have := hnext e he; omega
    unfold coalesce
    by_cases h1 : A > o
    · rw [if_pos h1]
      simp only
      by_cases h2 : o + l - A > 0
      · rw [if_pos h2]
        cases s with
        | acked =>
          simp only
          have he : A + (o + l - A) = o + l := by omega
          rw [he]
          refine ⟨hu.tail, hat, by omega, hnext, fun e he hs => ?_, fun i => ?_, fun i => ?_⟩
          · exact ha _ (List.mem_cons_self ..) e (by simp [he]) rfl hs (hu.head_lt e he)
          · rw [hcons]
            constructor
            · rintro (h | h)
              · by_cases h' : i < A
                · exact .inl h'
                · exact .inr (.inl ⟨rfl, by omega, h⟩)
              · exact .inr (.inr h)
            · rintro (h | ⟨_, h3, h4⟩ | h)
              · exact .inl (by omega)
              · exact .inl h4
              · exact .inr h
          · rw [hcons]
            constructor
            · intro h
              have := hlow _ _ h
              exact ⟨.inr h, by omega⟩
            · rintro ⟨⟨h, _⟩ | h, h5⟩
              · cases h
              · exact h
        | sent =>
          simp only
          have hne : ∀ e ∈ u, e.1 ≠ A := fun e he => by have := hnext e he; omega
          have hmem : ∀ e, e ∈ SMap.insert u A (o + l - A, RS.sent) ↔ e = (A, (o + l - A, .sent)) ∨ e ∈ u := by
            intro e
            rw [mem_insert]
            constructor
            · rintro (h | h)
              · exact .inl h
              · exact .inr h.1
            · rintro (h | h)
              · exact .inl h
              · exact .inr ⟨h, hne e h⟩
          refine ⟨⟨hu.tail.sorted.insert _ _, ?_, ?_⟩, ?_, Nat.le_refl _, ?_, ?_, ?_, ?_⟩
          · intro e he
            rcases (hmem e).mp he with rfl | he
            · exact h2
            · exact hu.tail.pos e he
          · intro e he e' he' hlt
            rcases (hmem e).mp he with rfl | he <;> rcases (hmem e').mp he' with rfl | he'
            · simp only at hlt; omega
            · have := hnext e' he'
              simp only [fin]; omega
            · have := hnext e he
              simp only at hlt; omega
            · exact hu.tail.disj e he e' he' hlt
          · intro e he e' he' hs hs' hlt
            rcases (hmem e).mp he with rfl | he
            · cases hs
            · rcases (hmem e').mp he' with rfl | he'
              · cases hs'
              · exact hat e he e' he' hs hs' hlt
          · intro e he
            rcases (hmem e).mp he with rfl | he
            · exact Nat.le_refl _
            · have := hnext e he; omega
          · intro e he hs
            rcases (hmem e).mp he with rfl | he
            · cases hs
            · have := hnext e he; omega
          · intro i
            rw [hcons]
            constructor
            · rintro (h | ⟨e, he, hs, h'⟩)
              · exact .inl h
              · rcases (hmem e).mp he with rfl | he
                · cases hs
                · exact .inr (.inr ⟨e, he, hs, h'⟩)
            · rintro (h | ⟨h, _⟩ | ⟨e, he, h'⟩)
              · exact .inl h
              · cases h
              · exact .inr ⟨e, (hmem e).mpr (.inr he), h'⟩
          · intro i
            rw [hcons]
            constructor
            · rintro ⟨e, he, hs, h3, h4⟩
              rcases (hmem e).mp he with rfl | he
              · simp only [fin] at h3 h4
                exact ⟨.inl ⟨rfl, by omega, by omega⟩, h3⟩
              · have := hnext e he
                exact ⟨.inr ⟨e, he, hs, h3, h4⟩, by omega⟩
            · rintro ⟨⟨_, h3, h4⟩ | ⟨e, he, h'⟩, h5⟩
              · exact ⟨_, (hmem _).mpr (.inl rfl), rfl, h5, by simp only [fin]; omega⟩
              · exact ⟨e, (hmem e).mpr (.inr he), h'⟩
      · rw [if_neg h2]
        obtain ⟨a, b, c, d, e, f, g⟩ := ih hu.tail hat
        refine ⟨a, b, c, d, e, fun i => ?_, fun i => ?_⟩
        · rw [f, hcons]
          constructor
          · rintro (h | h)
            · exact .inl h
            · exact .inr (.inr h)
          · rintro (h | ⟨_, _, h⟩ | h)
            · exact .inl h
            · exact .inl (by omega)
            · exact .inr h
        · rw [g, hcons]
          constructor
          · rintro ⟨h, h'⟩; exact ⟨.inr h, h'⟩
          · rintro ⟨⟨_, _, h3⟩ | h, h'⟩
            · omega
            · exact ⟨h, h'⟩
    · rw [if_neg h1]
      by_cases h2 : A = o
      · rw [if_pos h2]
        subst h2
        cases s with
        | acked =>
          simp only
          refine ⟨hu.tail, hat, by omega, hnext, fun e he hs => ?_, fun i => ?_, fun i => ?_⟩
          · exact ha _ (List.mem_cons_self ..) e (by simp [he]) rfl hs (hu.head_lt e he)
          · rw [hcons]
            constructor
            · rintro (h | h)
              · by_cases h' : i < A
                · exact .inl h'
                · exact .inr (.inl ⟨rfl, by omega, h⟩)
              · exact .inr (.inr h)
            · rintro (h | ⟨_, h3, h4⟩ | h)
              · exact .inl (by omega)
              · exact .inl h4
              · exact .inr h
          · rw [hcons]
            constructor
            · intro h
              have := hlow _ _ h
              exact ⟨.inr h, by omega⟩
            · rintro ⟨⟨h, _⟩ | h, h5⟩
              · cases h
              · exact h
        | sent =>
          simp only
          have hk : ∀ e ∈ (A, (l, RS.sent)) :: u, A ≤ e.1 := by
            intro e he
            rcases List.mem_cons.mp he with rfl | he
            · exact Nat.le_refl _
            · have := hnext e he; omega
          refine ⟨hu, ha, Nat.le_refl _, hk, fun e he hs => ?_, fun i => by simp, fun i => ?_⟩
          · rcases List.mem_cons.mp he with rfl | he
            · cases hs
            · have := hnext e he; omega
          · refine ⟨fun h => ⟨h, ?_⟩, fun h => h.1⟩
            obtain ⟨e, he, _, h3, _⟩ := h
            have := hk e he; omega
      · rw [if_neg h2]
        simp only
        have hk : ∀ e ∈ (o, (l, s)) :: u, A < e.1 := by
          intro e he
          rcases List.mem_cons.mp he with rfl | he
          · simp only; omega
          · have := hnext e he; omega
        refine ⟨hu, ha, Nat.le_refl _, fun e he => Nat.le_of_lt (hk e he), fun e he _ => hk e he,
          fun i => by simp, fun i => ⟨fun h => ⟨h, ?_⟩, fun h => h.1⟩⟩
        obtain ⟨e, he, _, h3, _⟩ := h
        have := hk e he; omega

/-- The four ways `absorb` can go. -/
theorem absorb_cases {u : Used} (hu : UOk u) (off stop : Nat) (hlt : off < stop) :
    ∃ E u2, absorb u off stop = (E, u2) ∧ Sorted u2 ∧
      ((∃ x, (stop, (x, .acked)) ∈ u ∧ E = stop + x ∧
          ∀ e, e ∈ u2 ↔ e ∈ u ∧ ¬ (off ≤ e.1 ∧ e.1 ≤ stop)) ∨
       (E = stop ∧ (∀ e, e ∈ u2 ↔ e ∈ u ∧ ¬ (off ≤ e.1 ∧ e.1 < stop)) ∧
          (∀ e ∈ u, off ≤ e.1 → e.1 < stop → fin e ≤ stop) ∧
          (∀ e ∈ u, e.1 = stop → e.2.2 = .sent)) ∨
       (∃ k l, (k, (l, .acked)) ∈ u ∧ off ≤ k ∧ k < stop ∧ stop < k + l ∧ E = k + l ∧
          ∀ e, e ∈ u2 ↔ e ∈ u ∧ ¬ (off ≤ e.1 ∧ e.1 < stop)) ∨
       (∃ k l, (k, (l, .sent)) ∈ u ∧ off ≤ k ∧ k < stop ∧ stop < k + l ∧ E = stop ∧
          ∀ e, e ∈ u2 ↔ (e ∈ u ∧ ¬ (off ≤ e.1 ∧ e.1 < stop)) ∨ e = (stop, (k + l - stop, .sent)))) := by
  have hcov : ∀ (e : Ent), e ∈ u → (e.1 ∈ keysIn u off stop ↔ off ≤ e.1 ∧ e.1 < stop) := by
    intro e he
    rw [mem_keysIn]
    exact ⟨fun h => h.2, fun h => ⟨⟨e.2, he⟩, h⟩⟩
  unfold absorb
  simp only
  cases hf : u.find stop with
  | some v =>
    obtain ⟨x, s⟩ := v
    have hm := (hu.sorted.find_eq_some).mp hf
    cases s with
    | acked =>
      refine ⟨_, _, rfl, sorted_eraseAll (hu.sorted.erase _) _, .inl ⟨x, hm, rfl, fun e => ?_⟩⟩
      rw [mem_eraseAll, mem_erase]
      constructor
      · rintro ⟨⟨h1, h2⟩, h3⟩
        rw [hcov e h1] at h3
        exact ⟨h1, by omega⟩
      · rintro ⟨h1, h2⟩
        refine ⟨⟨h1, by omega⟩, ?_⟩
        rw [hcov e h1]; omega
    | sent =>
      refine ⟨_, _, rfl, sorted_eraseAll hu.sorted _, .inr (.inl ⟨rfl, fun e => ?_, ?_, ?_⟩)⟩
      · rw [mem_eraseAll]
        constructor
        · rintro ⟨h1, h3⟩
          rw [hcov e h1] at h3
          exact ⟨h1, h3⟩
        · rintro ⟨h1, h2⟩
          refine ⟨h1, ?_⟩
          rw [hcov e h1]; exact h2
      · intro e he _ h2
        exact hu.disj e he _ hm h2
      · intro e he heq
        have := hu.sorted.unique he hm heq
        subst this; rfl
  | none =>
    have hno := find_eq_none.mp hf
    simp only
    cases hl : (keysIn u off stop).getLast? with
    | none =>
      rw [List.getLast?_eq_none_iff] at hl
      have hn : ∀ e ∈ u, off ≤ e.1 → e.1 < stop → False := by
        intro e he h1 h2
        have := (hcov e he).mpr ⟨h1, h2⟩
        rw [hl] at this; cases this
      refine ⟨_, _, rfl, sorted_eraseAll hu.sorted _, .inr (.inl ⟨rfl, fun e => ?_, ?_, ?_⟩)⟩
      · rw [hl]
        simp only [eraseAll]
        exact ⟨fun h => ⟨h, fun h' => hn e h h'.1 h'.2⟩, fun h => h.1⟩
      · intro e he h1 h2; exact absurd h2 (fun h2 => hn e he h1 h2)
      · intro e he heq; exact absurd heq (hno e he)
    | some k =>
      obtain ⟨ks, hks⟩ := List.getLast?_eq_some_iff.mp hl
      have hk : k ∈ keysIn u off stop := by rw [hks]; simp
      obtain ⟨⟨⟨l, s⟩, hkv⟩, hk1, hk2⟩ := mem_keysIn.mp hk
      have hfk : u.find k = some (l, s) := (hu.sorted.find_eq_some).mpr hkv
      simp only [hfk]
      have hdrop : (keysIn u off stop).dropLast = ks := by rw [hks]; simp
      rw [hdrop]
      have hsplit : ∀ (e : Ent), e ∈ u → ((e.1 = k ∨ e.1 ∈ ks) ↔ off ≤ e.1 ∧ e.1 < stop) := by
        intro e he
        rw [← hcov e he, hks]
        simp only [List.mem_append, List.mem_singleton]
        exact Or.comm
      have hmax : ∀ e ∈ u, off ≤ e.1 → e.1 < stop → e.1 ≤ k := by
        intro e he h1 h2
        have h3 := (hcov e he).mpr ⟨h1, h2⟩
        have h4 := sorted_keysIn hu.sorted off stop
        rw [hks] at h3 h4
        rcases List.mem_append.mp h3 with h5 | h5
        · have := (List.pairwise_append.mp h4).2.2 _ h5 k (by simp)
          omega
        · simp at h5; omega
      have hmem : ∀ e, e ∈ eraseAll (u.erase k) ks ↔ e ∈ u ∧ ¬ (off ≤ e.1 ∧ e.1 < stop) := by
        intro e
        rw [mem_eraseAll, mem_erase]
        constructor
        · rintro ⟨⟨h1, h2⟩, h3⟩
          rw [← hsplit e h1]
          exact ⟨h1, by rintro (h | h); exacts [h2 h, h3 h]⟩
        · rintro ⟨h1, h2⟩
          rw [← hsplit e h1, not_or] at h2
          exact ⟨⟨h1, h2.1⟩, h2.2⟩
      by_cases hr : k + l - stop > 0
      · rw [if_pos hr]
        cases s with
        | acked =>
          refine ⟨_, _, rfl, sorted_eraseAll (hu.sorted.erase _) _,
            .inr (.inr (.inl ⟨k, l, hkv, hk1, hk2, by omega, by omega, hmem⟩))⟩
        | sent =>
          refine ⟨_, _, rfl, sorted_eraseAll ((hu.sorted.erase _).insert _ _) _,
            .inr (.inr (.inr ⟨k, l, hkv, hk1, hk2, by omega, rfl, fun e => ?_⟩))⟩
          rw [← hmem e, mem_eraseAll, mem_eraseAll, mem_insert]
          have hks' : stop ∉ ks := by
            intro h
            have h' : stop ∈ keysIn u off stop := by rw [hks]; simp [h]
            have := (mem_keysIn.mp h').2.2
            omega
          constructor
          · rintro ⟨rfl | ⟨h1, h2⟩, h3⟩
            · exact .inr rfl
            · exact .inl ⟨h1, h3⟩
          · rintro (⟨h1, h2⟩ | rfl)
            · exact ⟨.inr ⟨h1, hno e (mem_erase.mp h1).1⟩, h2⟩
            · exact ⟨.inl rfl, hks'⟩
      · rw [if_neg hr]
        refine ⟨_, _, rfl, sorted_eraseAll (hu.sorted.erase _) _, .inr (.inl ⟨rfl, hmem, ?_, ?_⟩)⟩
        · intro e he h1 h2
          rcases Nat.lt_or_ge e.1 k with h3 | h3
          · have := hu.disj e he _ hkv h3
            simp only at this; omega
          · have := hmax e he h1 h2
            have := hu.sorted.unique he hkv (by simp only; omega)
            subst this
            simp only [fin]; omega
        · intro e he heq; exact absurd heq (hno e he)

/-- Entries of state `s` starting at or after `off` that contain `i`. -/
def HasFrom (u : Used) (off : Nat) (s : RS) (i : Nat) : Prop :=
  ∃ e ∈ u, off ≤ e.1 ∧ e.2.2 = s ∧ e.1 ≤ i ∧ i < fin e

structure AbsorbOk (u : Used) (off stop E : Nat) (u2 : Used) : Prop where
  le : stop ≤ E
  ok : UOk u2
  apart : Apart u2
  clear : ∀ e ∈ u2, e.1 < off ∨ E ≤ e.1
  clearA : ∀ e ∈ u2, off ≤ e.1 → e.2.2 = .acked → E < e.1
  before : ∀ e, e.1 < off → (e ∈ u2 ↔ e ∈ u)
  after : ∀ s i, HasFrom u2 off s i ↔ HasFrom u off s i ∧ E ≤ i
  ext : ∀ i, stop ≤ i → i < E → Has u .acked i

theorem absorb_ok {u : Used} (hu : UOk u) (ha : Apart u) {off stop : Nat} (hlt : off < stop) :
    ∃ E u2, absorb u off stop = (E, u2) ∧ AbsorbOk u off stop E u2 := by
  obtain ⟨E, u2, he, hs, hc⟩ := absorb_cases hu off stop hlt
  refine ⟨E, u2, he, ?_⟩
  clear he
  rcases hc with ⟨x, hx, rfl, hm⟩ | ⟨rfl, hm, hfin, hsent⟩ | ⟨k, l, hk, hk1, hk2, hk3, rfl, hm⟩ |
    ⟨k, l, hk, hk1, hk2, hk3, rfl, hm⟩
  · have hpos := hu.pos _ hx
    simp only at hpos
    have hafter : ∀ e ∈ u, stop < e.1 → stop + x ≤ e.1 := fun e he h1 => hu.disj _ hx e he h1
    refine ⟨by omega, ⟨hs, fun e he => hu.pos e ((hm e).mp he).1,
      fun e he e' he' => hu.disj e ((hm e).mp he).1 e' ((hm e').mp he').1⟩,
      fun e he e' he' => ha e ((hm e).mp he).1 e' ((hm e').mp he').1, ?_, ?_, ?_, ?_, ?_⟩
    · intro e he
      obtain ⟨h1, h2⟩ := (hm e).mp he
      by_cases h3 : e.1 < off
      · exact .inl h3
      · exact .inr (hafter e h1 (by omega))
    · intro e he h3 hsa
      obtain ⟨h1, h2⟩ := (hm e).mp he
      exact ha _ hx e h1 rfl hsa (by simp only; omega)
    · intro e h3
      rw [hm]
      exact ⟨fun h => h.1, fun h => ⟨h, by omega⟩⟩
    · intro s i
      constructor
      · rintro ⟨e, he, h3, h4, h5, h6⟩
        obtain ⟨h1, h2⟩ := (hm e).mp he
        exact ⟨⟨e, h1, h3, h4, h5, h6⟩, by have := hafter e h1 (by omega); omega⟩
      · rintro ⟨⟨e, h1, h3, h4, h5, h6⟩, h7⟩
        refine ⟨e, (hm e).mpr ⟨h1, ?_⟩, h3, h4, h5, h6⟩
        rintro ⟨_, h9⟩
        rcases Nat.lt_or_ge e.1 stop with h10 | h10
        · have := hu.disj e h1 _ hx h10
          simp only at this; omega
        · have := hu.sorted.unique h1 hx (by simp only; omega)
          subst this
          simp only [fin] at h6; omega
    · intro i h1 h2
      exact ⟨_, hx, rfl, h1, h2⟩
  · refine ⟨Nat.le_refl _, ⟨hs, fun e he => hu.pos e ((hm e).mp he).1,
      fun e he e' he' => hu.disj e ((hm e).mp he).1 e' ((hm e').mp he').1⟩,
      fun e he e' he' => ha e ((hm e).mp he).1 e' ((hm e').mp he').1, ?_, ?_, ?_, ?_, ?_⟩
    · intro e he
      obtain ⟨h1, h2⟩ := (hm e).mp he
      omega
    · intro e he h3 hsa
      obtain ⟨h1, h2⟩ := (hm e).mp he
      rcases Nat.lt_or_ge E e.1 with h4 | h4
      · exact h4
      · have := hsent e h1 (by omega)
        rw [hsa] at this; cases this
    · intro e h3
      rw [hm]
      exact ⟨fun h => h.1, fun h => ⟨h, by omega⟩⟩
    · intro s i
      constructor
      · rintro ⟨e, he, h3, h4, h5, h6⟩
        obtain ⟨h1, h2⟩ := (hm e).mp he
        exact ⟨⟨e, h1, h3, h4, h5, h6⟩, by omega⟩
      · rintro ⟨⟨e, h1, h3, h4, h5, h6⟩, h7⟩
        refine ⟨e, (hm e).mpr ⟨h1, ?_⟩, h3, h4, h5, h6⟩
        rintro ⟨h8, h9⟩
        have := hfin e h1 h8 h9
        omega
    · intro i h1 h2; omega
  · have hafter : ∀ e ∈ u, k < e.1 → k + l ≤ e.1 := fun e he h1 => hu.disj _ hk e he h1
    refine ⟨by omega, ⟨hs, fun e he => hu.pos e ((hm e).mp he).1,
      fun e he e' he' => hu.disj e ((hm e).mp he).1 e' ((hm e').mp he').1⟩,
      fun e he e' he' => ha e ((hm e).mp he).1 e' ((hm e').mp he').1, ?_, ?_, ?_, ?_, ?_⟩
    · intro e he
      obtain ⟨h1, h2⟩ := (hm e).mp he
      by_cases h3 : e.1 < off
      · exact .inl h3
      · exact .inr (hafter e h1 (by omega))
    · intro e he h3 hsa
      obtain ⟨h1, h2⟩ := (hm e).mp he
      exact ha _ hk e h1 rfl hsa (by simp only; omega)
    · intro e h3
      rw [hm]
      exact ⟨fun h => h.1, fun h => ⟨h, by omega⟩⟩
    · intro s i
      constructor
      · rintro ⟨e, he, h3, h4, h5, h6⟩
        obtain ⟨h1, h2⟩ := (hm e).mp he
        exact ⟨⟨e, h1, h3, h4, h5, h6⟩, by have := hafter e h1 (by omega); omega⟩
      · rintro ⟨⟨e, h1, h3, h4, h5, h6⟩, h7⟩
        refine ⟨e, (hm e).mpr ⟨h1, ?_⟩, h3, h4, h5, h6⟩
        rintro ⟨h8, h9⟩
        rcases Nat.lt_trichotomy e.1 k with h10 | h10 | h10
        · have := hu.disj e h1 _ hk h10
          simp only at this; omega
        · have := hu.sorted.unique h1 hk h10
          subst this
          simp only [fin] at h6; omega
        · have := hafter e h1 h10; omega
    · intro i h1 h2
      exact ⟨_, hk, rfl, by simp only; omega, h2⟩
  · have hafter : ∀ e ∈ u, k < e.1 → k + l ≤ e.1 := fun e he h1 => hu.disj _ hk e he h1
    have hb : ∀ e ∈ u, e.1 < k → fin e ≤ k := fun e he h1 => hu.disj e he _ hk h1
    refine ⟨Nat.le_refl _, ⟨hs, ?_, ?_⟩, ?_, ?_, ?_, ?_, ?_, ?_⟩
    · intro e he
      rcases (hm e).mp he with ⟨h1, h2⟩ | rfl
      · exact hu.pos e h1
      · simp only; omega
    · intro e he e' he' hlt'
      rcases (hm e).mp he with ⟨h1, h2⟩ | rfl <;> rcases (hm e').mp he' with ⟨h1', h2'⟩ | rfl
      · exact hu.disj e h1 e' h1' hlt'
      · simp only at hlt' ⊢
        have := hb e h1 (by omega); omega
      · simp only [fin] at hlt' ⊢
        have := hafter e' h1' (by omega); omega
      · simp only at hlt'; omega
    · intro e he e' he' hsa hsa' hlt'
      rcases (hm e).mp he with ⟨h1, h2⟩ | rfl
      · rcases (hm e').mp he' with ⟨h1', h2'⟩ | rfl
        · exact ha e h1 e' h1' hsa hsa' hlt'
        · cases hsa'
      · cases hsa
    · intro e he
      rcases (hm e).mp he with ⟨h1, h2⟩ | rfl
      · omega
      · exact .inr (Nat.le_refl _)
    · intro e he h3 hsa
      rcases (hm e).mp he with ⟨h1, h2⟩ | rfl
      · have := hafter e h1 (by omega); omega
      · cases hsa
    · intro e h3
      rw [hm]
      constructor
      · rintro (h | rfl)
        · exact h.1
        · simp only at h3; omega
      · intro h; exact .inl ⟨h, by omega⟩
    · intro s i
      constructor
      · rintro ⟨e, he, h3, h4, h5, h6⟩
        rcases (hm e).mp he with ⟨h1, h2⟩ | rfl
        · exact ⟨⟨e, h1, h3, h4, h5, h6⟩, by omega⟩
        · simp only [fin] at h4 h5 h6
          exact ⟨⟨_, hk, hk1, h4, by simp only; omega, by simp only [fin]; omega⟩, h5⟩
      · rintro ⟨⟨e, h1, h3, h4, h5, h6⟩, h7⟩
        rcases Nat.lt_trichotomy e.1 k with h10 | h10 | h10
        · have := hb e h1 h10; omega
        · have := hu.sorted.unique h1 hk h10
          subst this
          simp only [fin] at h6
          exact ⟨_, (hm _).mpr (.inr rfl), by simp only; omega, h4, h7, by simp only [fin]; omega⟩
        · have := hafter e h1 h10
          exact ⟨e, (hm e).mpr (.inl ⟨h1, by omega⟩), h3, h4, h5, h6⟩
    · intro i h1 h2; omega

theorem joinPrev_ok {u : Used} {off E : Nat} (hu : UOk u) (ha : Apart u) (hlt : off < E)
    (hclear : ∀ e ∈ u, e.1 < off ∨ E ≤ e.1)
    (hclearA : ∀ e ∈ u, off ≤ e.1 → e.2.2 = .acked → E < e.1) :
    UOk (joinPrev u off E) ∧ Apart (joinPrev u off E) ∧
    (∀ e ∈ joinPrev u off E, off ≤ e.1 ∨ ∃ e0 ∈ u, e0.1 = e.1 ∧ e0.2.2 = e.2.2) ∧
    (∀ i, Has (joinPrev u off E) .acked i ↔ Has u .acked i ∨ (off ≤ i ∧ i < E)) ∧
    (∀ i, Has (joinPrev u off E) .sent i ↔ Has u .sent i ∧ ¬ (off ≤ i ∧ i < E)) := by
  have hnoff : ∀ e ∈ u, e.1 ≠ off := fun e he => by have := hclear e he; omega
  -- no range reaches into the new one
  have simple : (∀ e ∈ u, e.1 < off → fin e ≤ off ∧ (e.2.2 = .acked → fin e < off)) →
      UOk (u.insert off (E - off, RS.acked)) ∧ Apart (u.insert off (E - off, RS.acked)) ∧
      (∀ e ∈ u.insert off (E - off, RS.acked), off ≤ e.1 ∨ ∃ e0 ∈ u, e0.1 = e.1 ∧ e0.2.2 = e.2.2) ∧
      (∀ i, Has (u.insert off (E - off, RS.acked)) .acked i ↔ Has u .acked i ∨ (off ≤ i ∧ i < E)) ∧
      (∀ i, Has (u.insert off (E - off, RS.acked)) .sent i ↔ Has u .sent i ∧ ¬ (off ≤ i ∧ i < E)) := by
    intro hb
    refine ⟨⟨hu.sorted.insert _ _, ?_, ?_⟩, ?_, ?_, ?_, ?_⟩
    · intro e he
      rcases mem_insert.mp he with rfl | ⟨he, _⟩
      · simp only; omega
      · exact hu.pos e he
    · intro e he e' he' hl
      rcases mem_insert.mp he with rfl | ⟨he, _⟩ <;> rcases mem_insert.mp he' with rfl | ⟨he', _⟩
      · simp only at hl; omega
      · simp only [fin] at hl ⊢
        have := hclear e' he'; omega
      · exact (hb e he hl).1
      · exact hu.disj e he e' he' hl
    · intro e he e' he' hs hs' hl
      rcases mem_insert.mp he with rfl | ⟨he, _⟩ <;> rcases mem_insert.mp he' with rfl | ⟨he', _⟩
      · simp only at hl; omega
      · simp only [fin] at hl ⊢
        have := hclearA e' he' (by omega) hs'; omega
      · exact (hb e he hl).2 hs
      · exact ha e he e' he' hs hs' hl
    · intro e he
      rcases mem_insert.mp he with rfl | ⟨he, _⟩
      · exact .inl (Nat.le_refl _)
      · exact .inr ⟨e, he, rfl, rfl⟩
    · intro i
      constructor
      · rintro ⟨e, he, hs, h1, h2⟩
        rcases mem_insert.mp he with rfl | ⟨he, _⟩
        · simp only [fin] at h1 h2
          exact .inr ⟨h1, by omega⟩
        · exact .inl ⟨e, he, hs, h1, h2⟩
      · rintro (⟨e, he, hs, h1, h2⟩ | ⟨h1, h2⟩)
        · exact ⟨e, mem_insert.mpr (.inr ⟨he, hnoff e he⟩), hs, h1, h2⟩
        · exact ⟨_, mem_insert.mpr (.inl rfl), rfl, h1, by simp only [fin]; omega⟩
    · intro i
      constructor
      · rintro ⟨e, he, hs, h1, h2⟩
        rcases mem_insert.mp he with rfl | ⟨he, _⟩
        · cases hs
        · refine ⟨⟨e, he, hs, h1, h2⟩, ?_⟩
          rintro ⟨h3, h4⟩
          rcases hclear e he with h5 | h5
          · have := (hb e he h5).1; omega
          · omega
      · rintro ⟨⟨e, he, hs, h1, h2⟩, h3⟩
        exact ⟨e, mem_insert.mpr (.inr ⟨he, hnoff e he⟩), hs, h1, h2⟩
  unfold joinPrev
  cases hprev : (u.below off).getLast? with
  | none =>
    have hn := below_none hprev
    exact simple (fun e he h => by have := hn e he; omega)
  | some p =>
    obtain ⟨po, pl, ps⟩ := p
    obtain ⟨p1, p2, p3⟩ := below_last hu.sorted hprev
    simp only at p2 p3 ⊢
    have hbelow : ∀ e ∈ u, e.1 < off → e = (po, (pl, ps)) ∨ fin e ≤ po := by
      intro e he hl
      rcases Nat.lt_or_ge e.1 po with h1 | h1
      · exact .inr (hu.disj e he _ p1 h1)
      · exact .inl (hu.sorted.unique he p1 (by have := p3 e he hl; simp only; omega))
    have habove : ∀ e ∈ u, po < e.1 → po + pl ≤ e.1 ∧ E ≤ e.1 := by
      intro e he hl
      refine ⟨hu.disj _ p1 e he hl, ?_⟩
      rcases hclear e he with h1 | h1
      · have := p3 e he h1; omega
      · exact h1
    by_cases hov : po + pl ≥ off
    rotate_left
    · rw [if_neg hov]
      refine simple (fun e he h => ?_)
      rcases hbelow e he h with rfl | h1
      · simp only [fin]; exact ⟨by omega, fun _ => by omega⟩
      · exact ⟨by omega, fun _ => by omega⟩
    rw [if_pos hov]
    cases ps with
    | sent =>
      simp only
      -- the resulting map
      have hmem : ∀ e, e ∈ (if po + pl > E then
            (u.insert po (off - po, RS.sent)).insert E (po + pl - E, RS.sent)
          else u.insert po (off - po, RS.sent)).insert off (E - off, RS.acked) ↔
          e = (off, (E - off, .acked)) ∨ e = (po, (off - po, .sent)) ∨
          (po + pl > E ∧ e = (E, (po + pl - E, .sent))) ∨ (e ∈ u ∧ e.1 ≠ po) := by
        intro e
        by_cases hE : po + pl > E
        · rw [if_pos hE, mem_insert, mem_insert, mem_insert]
          constructor
          · rintro (h | ⟨h | ⟨h | h, _⟩, _⟩)
            · exact .inl h
            · exact .inr (.inr (.inl ⟨hE, h⟩))
            · exact .inr (.inl h)
            · exact .inr (.inr (.inr h))
          · rintro (h | rfl | ⟨_, rfl⟩ | ⟨h, h'⟩)
            · exact .inl h
            · exact .inr ⟨.inr ⟨.inl rfl, by simp only; omega⟩, by simp only; omega⟩
            · exact .inr ⟨.inl rfl, by simp only; omega⟩
            · refine .inr ⟨.inr ⟨.inr ⟨h, h'⟩, ?_⟩, hnoff e h⟩
              intro heq
              have := (habove e h (by omega)).1
              omega
        · rw [if_neg hE, mem_insert, mem_insert]
          constructor
          · rintro (h | ⟨h | h, _⟩)
            · exact .inl h
            · exact .inr (.inl h)
            · exact .inr (.inr (.inr h))
          · rintro (h | rfl | ⟨h, _⟩ | ⟨h, h'⟩)
            · exact .inl h
            · exact .inr ⟨.inl rfl, by simp only; omega⟩
            · omega
            · exact .inr ⟨.inr ⟨h, h'⟩, hnoff e h⟩
      have hsorted : Sorted ((if po + pl > E then
            (u.insert po (off - po, RS.sent)).insert E (po + pl - E, RS.sent)
          else u.insert po (off - po, RS.sent)).insert off (E - off, RS.acked)) := by
        refine Sorted.insert ?_ _ _
        split
        · exact (hu.sorted.insert _ _).insert _ _
        · exact hu.sorted.insert _ _
      generalize (if po + pl > E then
            (u.insert po (off - po, RS.sent)).insert E (po + pl - E, RS.sent)
          else u.insert po (off - po, RS.sent)).insert off (E - off, RS.acked) = u' at *
      -- where the untouched entries lie
      have hold : ∀ e ∈ u, e.1 ≠ po → fin e ≤ po ∨ (po + pl ≤ e.1 ∧ E ≤ e.1) := by
        intro e he hne
        rcases Nat.lt_or_ge e.1 po with h1 | h1
        · exact .inl (hu.disj e he _ p1 h1)
        · exact .inr (habove e he (by omega))
      refine ⟨⟨hsorted, ?_, ?_⟩, ?_, ?_, ?_, ?_⟩
      · intro e he
        rcases (hmem e).mp he with rfl | rfl | ⟨h, rfl⟩ | ⟨h, _⟩
        · simp only; omega
        · simp only; omega
        · simp only; omega
        · exact hu.pos e h
      · intro e he e' he' hl
        rcases (hmem e).mp he with rfl | rfl | ⟨h, rfl⟩ | ⟨h, hne⟩ <;>
          rcases (hmem e').mp he' with rfl | rfl | ⟨h', rfl⟩ | ⟨h', hne'⟩
        all_goals first
          | (simp only [fin] at hl ⊢; omega)
          | (have a := hold _ h' hne'; have b := hu.pos _ h'; simp only [fin] at *; omega)
          | (have a := hold _ h hne; have b := hu.pos _ h; simp only [fin] at *; omega)
          | exact hu.disj e h e' h' hl
      · intro e he e' he' hs hs' hl
        rcases (hmem e).mp he with rfl | rfl | ⟨h, rfl⟩ | ⟨h, hne⟩
        · rcases (hmem e').mp he' with rfl | rfl | ⟨h', rfl⟩ | ⟨h', hne'⟩
          · simp only at hl; omega
          · cases hs'
          · cases hs'
          · have := hclearA e' h' (by simp only at hl; omega) hs'
            simp only [fin]; omega
        · cases hs
        · cases hs
        · rcases (hmem e').mp he' with rfl | rfl | ⟨h', rfl⟩ | ⟨h', hne'⟩
          · have a := hold e h hne
            have b := hu.pos e h
            simp only at hl ⊢; omega
          · cases hs'
          · cases hs'
          · exact ha e h e' h' hs hs' hl
      · intro e he
        rcases (hmem e).mp he with rfl | rfl | ⟨h, rfl⟩ | ⟨h, hne⟩
        · exact .inl (Nat.le_refl _)
        · exact .inr ⟨_, p1, rfl, rfl⟩
        · exact .inl (by simp only; omega)
        · exact .inr ⟨e, h, rfl, rfl⟩
      · intro i
        constructor
        · rintro ⟨e, he, hs, h1, h2⟩
          rcases (hmem e).mp he with rfl | rfl | ⟨h, rfl⟩ | ⟨h, hne⟩
          · simp only [fin] at h1 h2
            exact .inr ⟨h1, by omega⟩
          · cases hs
          · cases hs
          · exact .inl ⟨e, h, hs, h1, h2⟩
        · rintro (⟨e, he, hs, h1, h2⟩ | ⟨h1, h2⟩)
          · refine ⟨e, (hmem e).mpr (.inr (.inr (.inr ⟨he, fun heq => ?_⟩))), hs, h1, h2⟩
            have := hu.sorted.unique he p1 heq
            subst this
            cases hs
          · exact ⟨_, (hmem _).mpr (.inl rfl), rfl, h1, by simp only [fin]; omega⟩
      · intro i
        constructor
        · rintro ⟨e, he, hs, h1, h2⟩
          rcases (hmem e).mp he with rfl | rfl | ⟨h, rfl⟩ | ⟨h, hne⟩
          · cases hs
          · simp only [fin] at h1 h2
            exact ⟨⟨_, p1, rfl, h1, by simp only [fin]; omega⟩, by omega⟩
          · simp only [fin] at h1 h2
            exact ⟨⟨_, p1, rfl, by simp only; omega, by simp only [fin]; omega⟩, by omega⟩
          · refine ⟨⟨e, h, hs, h1, h2⟩, ?_⟩
            have := hold e h hne
            omega
        · rintro ⟨⟨e, he, hs, h1, h2⟩, h3⟩
          by_cases heq : e.1 = po
          · have := hu.sorted.unique he p1 heq
            subst this
            simp only [fin] at h1 h2
            by_cases h4 : i < off
            · exact ⟨_, (hmem _).mpr (.inr (.inl rfl)), rfl, h1, by simp only [fin]; omega⟩
            · exact ⟨_, (hmem _).mpr (.inr (.inr (.inl ⟨by omega, rfl⟩))), rfl, by simp only; omega,
                by simp only [fin]; omega⟩
          · exact ⟨e, (hmem e).mpr (.inr (.inr (.inr ⟨he, heq⟩))), hs, h1, h2⟩
    | acked =>
      simp only
      have hmax : po + (max (po + pl) E - po) = max (po + pl) E := by omega
      refine ⟨⟨hu.sorted.insert _ _, ?_, ?_⟩, ?_, ?_, ?_, ?_⟩
      · intro e he
        rcases mem_insert.mp he with rfl | ⟨he, _⟩
        · simp only; omega
        · exact hu.pos e he
      · intro e he e' he' hl
        rcases mem_insert.mp he with rfl | ⟨he, hne⟩ <;> rcases mem_insert.mp he' with rfl | ⟨he', hne'⟩
        · simp only at hl; omega
        · simp only [fin] at hl ⊢
          have := habove e' he' hl; omega
        · exact hu.disj e he (po, (pl, .acked)) p1 hl
        · exact hu.disj e he e' he' hl
      · intro e he e' he' hs hs' hl
        rcases mem_insert.mp he with rfl | ⟨he, hne⟩ <;> rcases mem_insert.mp he' with rfl | ⟨he', hne'⟩
        · simp only at hl; omega
        · simp only [fin] at hl ⊢
          have h1 := habove e' he' hl
          have h2 := ha _ p1 e' he' rfl hs' hl
          have h3 := hclearA e' he' (by omega) hs'
          simp only [fin] at h2
          omega
        · exact ha e he (po, (pl, .acked)) p1 hs rfl hl
        · exact ha e he e' he' hs hs' hl
      · intro e he
        rcases mem_insert.mp he with rfl | ⟨he, _⟩
        · exact .inr ⟨_, p1, rfl, rfl⟩
        · exact .inr ⟨e, he, rfl, rfl⟩
      · intro i
        constructor
        · rintro ⟨e, he, hs, h1, h2⟩
          rcases mem_insert.mp he with rfl | ⟨he, _⟩
          · simp only [fin, hmax] at h1 h2
            by_cases h3 : i < po + pl
            · exact .inl ⟨_, p1, rfl, h1, h3⟩
            · exact .inr ⟨by omega, by omega⟩
          · exact .inl ⟨e, he, hs, h1, h2⟩
        · rintro (⟨e, he, hs, h1, h2⟩ | ⟨h1, h2⟩)
          · by_cases heq : e.1 = po
            · have := hu.sorted.unique he p1 heq
              subst this
              simp only [fin] at h1 h2
              exact ⟨_, mem_insert.mpr (.inl rfl), rfl, h1, by simp only [fin]; omega⟩
            · exact ⟨e, mem_insert.mpr (.inr ⟨he, heq⟩), hs, h1, h2⟩
          · exact ⟨_, mem_insert.mpr (.inl rfl), rfl, by simp only; omega, by simp only [fin]; omega⟩
      · intro i
        constructor
        · rintro ⟨e, he, hs, h1, h2⟩
          rcases mem_insert.mp he with rfl | ⟨he, hne⟩
          · cases hs
          · refine ⟨⟨e, he, hs, h1, h2⟩, ?_⟩
            rcases Nat.lt_or_ge e.1 po with h3 | h3
            · have := hu.disj e he _ p1 h3
              simp only at this; omega
            · have := habove e he (by omega); omega
        · rintro ⟨⟨e, he, hs, h1, h2⟩, h3⟩
          refine ⟨e, mem_insert.mpr (.inr ⟨he, fun heq => ?_⟩), hs, h1, h2⟩
          have := hu.sorted.unique he p1 heq
          subst this
          cases hs

theorem markAcked_ok {t : Tracker} (h : TOk t) (o l : Nat) :
    TOk (t.markAcked o l) ∧ t.acked ≤ (t.markAcked o l).acked ∧
    (∀ i, AckedAt (t.markAcked o l) i ↔ AckedAt t i ∨ (o ≤ i ∧ i < o + l)) ∧
    (∀ i, SentAt (t.markAcked o l) i ↔ SentAt t i ∧ ¬ (o ≤ i ∧ i < o + l)) := by
  have hlowS : ∀ i, SentAt t i → t.acked ≤ i := by
    rintro i ⟨e, he, _, h1, _⟩
    have := h.low e he; omega
  unfold Tracker.markAcked
  simp only
  by_cases hz : o + l - max t.acked o = 0
  · rw [if_pos hz]
    refine ⟨h, Nat.le_refl _, fun i => ⟨.inl, ?_⟩, fun i => ⟨fun h' => ⟨h', ?_⟩, fun h' => h'.1⟩⟩
    · rintro (h' | h')
      · exact h'
      · exact .inl (by omega)
    · have := hlowS i h'; omega
  rw [if_neg hz]
  by_cases ho : max t.acked o = t.acked
  · rw [if_pos ho]
    obtain ⟨a, b, c, d, e, f, g⟩ :=
      coalesce_ok (A := t.acked + (o + l - max t.acked o)) h.u h.apart
    refine ⟨⟨a, b, d, e, .inl rfl⟩, by simp only; omega, fun i => ?_, fun i => ?_⟩
    · simp only [AckedAt]
      rw [f]
      constructor
      · rintro (h' | h')
        · by_cases h1 : i < t.acked
          · exact .inl (.inl h1)
          · exact .inr (by omega)
        · exact .inl (.inr h')
      · rintro ((h' | h') | h')
        · exact .inl (by omega)
        · exact .inr h'
        · exact .inl (by omega)
    · simp only [SentAt]
      rw [g]
      constructor
      · rintro ⟨h1, h2⟩; exact ⟨h1, by omega⟩
      · rintro ⟨h1, h2⟩
        have := hlowS i h1
        exact ⟨h1, by omega⟩
  · rw [if_neg ho]
    have hmax : max t.acked o = o := by omega
    rw [hmax]
    obtain ⟨E, u2, he, hb⟩ := absorb_ok h.u h.apart (off := o) (stop := o + l) (by omega)
    rw [he]
    have hle := hb.le
    obtain ⟨a, b, c, d, e⟩ := joinPrev_ok (off := o) (E := E) hb.ok hb.apart (by omega) hb.clear hb.clearA
    have hsplit : ∀ (u : Used) s i, Has u s i ↔
        (∃ e ∈ u, e.1 < o ∧ e.2.2 = s ∧ e.1 ≤ i ∧ i < fin e) ∨ HasFrom u o s i := by
      intro u s i
      constructor
      · rintro ⟨e, he, h'⟩
        by_cases h1 : e.1 < o
        · exact .inl ⟨e, he, h1, h'⟩
        · exact .inr ⟨e, he, by omega, h'⟩
      · rintro (⟨e, he, _, h'⟩ | ⟨e, he, _, h'⟩) <;> exact ⟨e, he, h'⟩
    have hH : ∀ s i, Has u2 s i ↔
        (∃ e ∈ t.used, e.1 < o ∧ e.2.2 = s ∧ e.1 ≤ i ∧ i < fin e) ∨ (HasFrom t.used o s i ∧ E ≤ i) := by
      intro s i
      rw [hsplit, hb.after]
      constructor
      · rintro (⟨e, he, h1, h'⟩ | h')
        · exact .inl ⟨e, (hb.before e h1).mp he, h1, h'⟩
        · exact .inr h'
      · rintro (⟨e, he, h1, h'⟩ | h')
        · exact .inl ⟨e, (hb.before e h1).mpr he, h1, h'⟩
        · exact .inr h'
    have hkeep : ∀ x ∈ joinPrev u2 o E, o ≤ x.1 ∨ ∃ e0 ∈ t.used, e0.1 = x.1 ∧ e0.2.2 = x.2.2 := by
      intro x hx
      by_cases h1 : o ≤ x.1
      · exact .inl h1
      · rcases c x hx with h2 | ⟨e0, h2, h3, h4⟩
        · exact .inl h2
        · exact .inr ⟨e0, (hb.before e0 (by omega)).mp h2, h3, h4⟩
    refine ⟨⟨a, b, fun x hx => ?_, fun x hx hs => ?_, .inl rfl⟩, Nat.le_refl _, fun i => ?_, fun i => ?_⟩
    · rcases hkeep x hx with h1 | ⟨e0, h2, h3, h4⟩
      · simp only; omega
      · have := h.low e0 h2
        simp only; omega
    · rcases hkeep x hx with h1 | ⟨e0, h2, h3, h4⟩
      · simp only; omega
      · have := h.lowA e0 h2 (by rw [h4]; exact hs)
        simp only; omega
    · simp only [AckedAt]
      rw [d, hH, hsplit t.used]
      constructor
      · rintro (h1 | (h1 | ⟨h1, h2⟩) | ⟨h1, h2⟩)
        · exact .inl (.inl h1)
        · exact .inl (.inr (.inl h1))
        · exact .inl (.inr (.inr h1))
        · by_cases h3 : i < o + l
          · exact .inr ⟨h1, h3⟩
          · have h4 := hb.ext i (by omega) h2
            rw [hsplit] at h4
            exact .inl (.inr h4)
      · rintro ((h1 | h1 | h1) | ⟨h1, h2⟩)
        · exact .inl h1
        · exact .inr (.inl (.inl h1))
        · by_cases h2 : E ≤ i
          · exact .inr (.inl (.inr ⟨h1, h2⟩))
          · obtain ⟨e, he, h3, _, h4, _⟩ := h1
            exact .inr (.inr ⟨by omega, by omega⟩)
        · exact .inr (.inr ⟨h1, by omega⟩)
    · simp only [SentAt]
      rw [e, hH, hsplit t.used]
      have hex : ∀ i, Has t.used .sent i → o + l ≤ i → i < E → False := fun i h1 h2 h3 =>
        Has.excl h.u h1 (hb.ext i h2 h3)
      rw [← hsplit]
      constructor
      · rintro ⟨h1 | ⟨h1, h2⟩, h3⟩
        · exact ⟨(hsplit _ _ _).mpr (.inl h1), by omega⟩
        · exact ⟨(hsplit _ _ _).mpr (.inr h1), by omega⟩
      · rintro ⟨h1, h2⟩
        have h3 : ¬ (o ≤ i ∧ i < E) := by
          rintro ⟨h3, h4⟩
          exact hex i h1 (by omega) h4
        refine ⟨?_, h3⟩
        rcases (hsplit _ _ _).mp h1 with h4 | h4
        · exact .inl h4
        · obtain ⟨e, he, h5, _, h6, _⟩ := id h4
          exact .inr ⟨h4, by omega⟩

end Neqo.Send
