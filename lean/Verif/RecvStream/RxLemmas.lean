import Verif.RecvStream.RxModel
import Mathlib.Tactic.ByContra

/-! Helper lemmas for the reassembly buffer. -/
namespace Neqo.Recv
open Neqo.Codec (Bytes)

/-- Which byte values have been received at which offset. -/
abbrev Rcv := Nat → UInt8 → Prop

/-- Every byte of `d`, placed at offset `a`, was received there. -/
def Ok (R : Rcv) (a : Nat) (d : Bytes) : Prop := ∀ i b, d[i]? = some b → R (a + i) b

section ok
variable {R R' : Rcv}
theorem Ok.mono {a d} (h : Ok R a d) (hR : ∀ i b, R i b → R' i b) : Ok R' a d :=
  fun i b hb => hR _ _ (h i b hb)
theorem Ok.append {a u v} (hu : Ok R a u) (hv : Ok R (a + u.length) v) : Ok R a (u ++ v) := by
  intro i b hb
  by_cases hi : i < u.length
  · rw [List.getElem?_append_left hi] at hb; exact hu i b hb
  · rw [List.getElem?_append_right (by omega)] at hb
    have := hv _ b hb
    rwa [show a + u.length + (i - u.length) = a + i by omega] at this
theorem Ok.take {a d} (h : Ok R a d) (n : Nat) : Ok R a (d.take n) := by
  intro i b hb
  rw [List.getElem?_take] at hb
  split at hb
  · exact h i b hb
  · cases hb
theorem Ok.drop {a d} (h : Ok R a d) (n : Nat) : Ok R (a + n) (d.drop n) := by
  intro i b hb
  rw [List.getElem?_drop] at hb
  have := h _ b hb
  rwa [show a + n + i = a + (n + i) by omega]
end ok

/-- Offsets covered by a list of ranges. -/
def Cov (m : SMap Bytes) (i : Nat) : Prop := ∃ e ∈ m, e.1 ≤ i ∧ i < rend e

theorem cov_append {a b : SMap Bytes} {i : Nat} : Cov (a ++ b) i ↔ Cov a i ∨ Cov b i := by
  simp only [Cov, List.mem_append]
  constructor
  · rintro ⟨e, h | h, h'⟩
    · exact .inl ⟨e, h, h'⟩
    · exact .inr ⟨e, h, h'⟩
  · rintro (⟨e, h, h'⟩ | ⟨e, h, h'⟩)
    · exact ⟨e, .inl h, h'⟩
    · exact ⟨e, .inr h, h'⟩

theorem cov_cons {e : Nat × Bytes} {m : SMap Bytes} {i : Nat} :
    Cov (e :: m) i ↔ (e.1 ≤ i ∧ i < rend e) ∨ Cov m i := by
  simp [Cov]

@[simp] theorem cov_nil {i : Nat} : Cov [] i ↔ False := by simp [Cov]

/-- Ranges in order and not overlapping. -/
def Disj (m : SMap Bytes) : Prop := m.Pairwise (fun a b => rend a ≤ b.1)

theorem disj_append {a b : SMap Bytes} :
    Disj (a ++ b) ↔ Disj a ∧ Disj b ∧ ∀ x ∈ a, ∀ y ∈ b, rend x ≤ y.1 := List.pairwise_append
theorem disj_cons {e : Nat × Bytes} {m : SMap Bytes} :
    Disj (e :: m) ↔ (∀ x ∈ m, rend e ≤ x.1) ∧ Disj m := List.pairwise_cons

theorem Disj.sorted {m : SMap Bytes} (h : Disj m) (hne : ∀ e ∈ m, e.2 ≠ []) : m.Sorted := by
  induction m with
  | nil => exact List.Pairwise.nil
  | cons e m ih =>
    have h' := disj_cons.mp h
    refine SMap.sorted_cons.mpr ⟨?_, ih h'.2 (fun x hx => hne x (by simp [hx]))⟩
    intro x hx
    have h1 := h'.1 x hx
    have h2 : 0 < e.2.length := List.length_pos_iff.mpr (hne e (by simp))
    unfold rend at h1; omega

/-- The invariant relating the buffer to the bytes `R` received so far. -/
structure Inv (R : Rcv) (s : Rx) : Prop where
  disj : Disj s.ranges
  data : ∀ e ∈ s.ranges, Ok R e.1 e.2
  live : ∀ e ∈ s.ranges, e.2 ≠ [] ∧ s.retired < rend e
  cover : ∀ i, s.retired ≤ i → ((∃ b, R i b) ↔ Cov s.ranges i)
  past : ∀ i, i < s.retired → ∃ b, R i b
  endUp : ∀ e ∈ s.ranges, rend e ≤ s.end_
  endEq : (s.ranges = [] ∧ s.end_ = s.retired) ∨ ∃ e ∈ s.ranges, rend e = s.end_

theorem Inv.sorted {R s} (h : Inv R s) : s.ranges.Sorted :=
  h.disj.sorted (fun e he => (h.live e he).1)

theorem Inv.retired_le_end {R s} (h : Inv R s) : s.retired ≤ s.end_ := by
  rcases h.endEq with ⟨_, h'⟩ | ⟨e, he, h'⟩
  · omega
  · have := (h.live e he).2; omega

theorem inv_init : Inv (fun _ _ => False) {} :=
  ⟨List.Pairwise.nil, by simp, by simp, by simp, by simp, by simp, .inl ⟨rfl, rfl⟩⟩

/-- More bytes received at offsets that were already covered. -/
theorem Inv.widen {R R' : Rcv} {s} (h : Inv R s) (hmono : ∀ i b, R i b → R' i b)
    (hR : ∀ i, (∃ b, R' i b) → ∃ b, R i b) : Inv R' s :=
  { h with
    data := fun e he => (h.data e he).mono hmono
    cover := fun i hi => ⟨fun h' => (h.cover i hi).mp (hR i h'),
      fun h' => let ⟨b, hb⟩ := (h.cover i hi).mpr h'; ⟨b, hmono i b hb⟩⟩
    past := fun i hi => let ⟨b, hb⟩ := h.past i hi; ⟨b, hmono i b hb⟩ }

/-! ### The scan over following ranges -/

structure ScanSpec (newStart newEnd len : Nat) (hi rest : SMap Bytes) (addLen : Nat) : Prop where
  suffix : rest <:+ hi
  le : addLen ≤ len
  after : ∀ e ∈ rest, newStart + addLen ≤ e.1
  cov : ∀ i, (Cov hi i ∨ (newStart ≤ i ∧ i < newEnd)) ↔
             (Cov rest i ∨ (newStart ≤ i ∧ i < newStart + addLen))
  trunc : addLen < len → ∃ e ∈ rest, newEnd ≤ rend e
  removed : ∀ e ∈ hi, e ∈ rest ∨ rend e < newEnd

theorem scanNext_spec (newStart newEnd len : Nat) (hlen : newEnd = newStart + len)
    (hi : SMap Bytes) (hd : Disj hi) (hk : ∀ e ∈ hi, newStart ≤ e.1) :
    ScanSpec newStart newEnd len hi (scanNext newEnd len hi).1 (scanNext newEnd len hi).2 := by
  induction hi with
  | nil =>
    simp only [scanNext]
    exact ⟨List.suffix_refl _, Nat.le_refl _, by simp, by intro i; simp [hlen], by omega, by simp⟩
  | cons e hi ih =>
    obtain ⟨s, d⟩ := e
    have hd' := disj_cons.mp hd
    have hks : newStart ≤ s := hk (s, d) (by simp)
    simp only [scanNext]
    split
    · rename_i h0
      refine ⟨List.suffix_refl _, Nat.le_refl _, ?_, ?_, by omega, fun e he => .inl he⟩
      · intro e he
        rcases List.mem_cons.mp he with rfl | he
        · simp only; omega
        · have := hd'.1 e he; unfold rend at this; simp only at this; omega
      · intro i; rw [hlen]
    · rename_i h0
      split
      · rename_i h1
        refine ⟨List.suffix_refl _, by omega, ?_, ?_, ?_, fun e he => .inl he⟩
        · intro e he
          rcases List.mem_cons.mp he with rfl | he
          · simp only; omega
          · have := hd'.1 e he; unfold rend at this; simp only at this; omega
        · intro i
          rw [cov_cons]
          simp only [rend]
          constructor
          · rintro ((h | h) | h)
            · exact .inl (.inl h)
            · exact .inl (.inr h)
            · by_cases hs : s ≤ i
              · exact .inl (.inl ⟨hs, by omega⟩)
              · exact .inr ⟨h.1, by omega⟩
          · rintro (h | h)
            · exact .inl h
            · exact .inr ⟨h.1, by omega⟩
        · intro _
          exact ⟨(s, d), by simp, by simpa [rend] using h1⟩
      · rename_i h1
        have ih' := ih hd'.2 (fun e he => hk e (by simp [he]))
        refine ⟨ih'.suffix.trans (List.suffix_cons _ _), ih'.le, ih'.after, ?_, ih'.trunc, ?_⟩
        · intro i
          rw [← ih'.cov i, cov_cons]
          simp only [rend]
          constructor
          · rintro ((h | h) | h)
            · exact .inr ⟨by omega, by omega⟩
            · exact .inl h
            · exact .inr h
          · rintro (h | h)
            · exact .inl (.inr h)
            · exact .inr h
        · intro e he
          rcases List.mem_cons.mp he with rfl | he
          · right; unfold rend; simp only; omega
          · exact ih'.removed e he

/-! ### Map algebra for the extension case -/

theorem modify_mid {A B : SMap Bytes} {k : Nat} {v : Bytes} {g : Bytes → Bytes}
    (hA : ∀ e ∈ A, e.1 ≠ k) (hB : ∀ e ∈ B, e.1 ≠ k) :
    SMap.modify (A ++ (k, v) :: B) k g = A ++ (k, g v) :: B := by
  have idm : ∀ (L : SMap Bytes), (∀ e ∈ L, e.1 ≠ k) →
      L.map (fun e => if e.1 = k then (e.1, g e.2) else e) = L := by
    intro L hL
    conv => rhs; rw [← List.map_id L]
    apply List.map_congr_left
    intro e he; simp [hL e he]
  unfold SMap.modify
  rw [List.map_append, List.map_cons, idm A hA, idm B hB]
  simp

theorem erase_mid {A B : SMap Bytes} {k : Nat} {v : Bytes}
    (hA : ∀ e ∈ A, e.1 ≠ k) (hB : ∀ e ∈ B, e.1 ≠ k) :
    SMap.erase (A ++ (k, v) :: B) k = A ++ B := by
  unfold SMap.erase
  rw [List.filter_append, List.filter_cons]
  simp only [ne_eq, not_true_eq_false, decide_false, Bool.false_eq_true, if_false]
  rw [SMap.filter_eq_self_of (m := A) (by intro e he; simpa using hA e he),
    SMap.filter_eq_self_of (m := B) (by intro e he; simpa using hB e he)]

theorem sublist_disj {a b : SMap Bytes} (h : a.Sublist b) (hb : Disj b) : Disj a :=
  List.Pairwise.sublist h hb

theorem insert_eq_mid {A B : SMap Bytes} {k : Nat} {v : Bytes}
    (hA : ∀ e ∈ A, e.1 < k) (hB : ∀ e ∈ B, k < e.1) :
    SMap.insert (A ++ B) k v = A ++ (k, v) :: B := by
  unfold SMap.insert SMap.below SMap.above
  rw [List.filter_append, List.filter_append,
    SMap.filter_eq_self_of (m := A) (by intro e he; simpa using hA e he),
    SMap.filter_eq_nil_of (m := B) (by intro e he; have := hB e he; simp; omega),
    SMap.filter_eq_nil_of (m := A) (by intro e he; have := hA e he; simp; omega),
    SMap.filter_eq_self_of (m := B) (by intro e he; simpa using hB e he)]
  simp

/-- `R'` extends `R` by exactly the offsets `[ns, ne)` (values unspecified). -/
structure Adds (R R' : Rcv) (ns ne : Nat) : Prop where
  mono : ∀ i b, R i b → R' i b
  ex : ∀ i, (∃ b, R' i b) ↔ (∃ b, R i b) ∨ (ns ≤ i ∧ i < ne)

/-- The state after adding `v` at `ns` to the ranges `A ++ rest`. -/
theorem mk_inserted {R R' s} (h : Inv R s) {ns ne len : Nat} {v : Bytes} {A hi rest : SMap Bytes}
    (hm : s.ranges = A ++ hi) (hA : ∀ e ∈ A, rend e ≤ ns)
    (hsp : ScanSpec ns ne len hi rest v.length) (hlen : ne = ns + len) (hns : s.retired ≤ ns)
    (hadd : Adds R R' ns ne) (hv : Ok R' ns v) (hpos : v ≠ []) :
    Inv R' { s with ranges := A ++ (ns, v) :: rest, received := s.received + v.length,
                    end_ := max s.end_ ne } := by
  have hd := h.disj
  rw [hm, disj_append] at hd
  have hrd : Disj rest := sublist_disj hsp.suffix.sublist hd.2.1
  have hrm : ∀ e ∈ rest, e ∈ s.ranges := fun e he => by
    rw [hm]; exact List.mem_append.mpr (.inr (hsp.suffix.subset he))
  have hAm : ∀ e ∈ A, e ∈ s.ranges := fun e he => by
    rw [hm]; exact List.mem_append.mpr (.inl he)
  have hle := hsp.le
  have hvpos : 0 < v.length := List.length_pos_iff.mpr hpos
  refine ⟨?_, ?_, ?_, ?_, ?_, ?_, ?_⟩
  · simp only
    rw [disj_append, disj_cons]
    refine ⟨hd.1, ⟨?_, hrd⟩, ?_⟩
    · intro x hx; have := hsp.after x hx; simpa [rend] using this
    · intro x hx y hy
      rcases List.mem_cons.mp hy with rfl | hy
      · exact hA x hx
      · exact hd.2.2 x hx y (hsp.suffix.subset hy)
  · intro e he
    simp only [List.mem_append, List.mem_cons] at he
    rcases he with he | rfl | he
    · exact (h.data e (hAm e he)).mono hadd.mono
    · exact hv
    · exact (h.data e (hrm e he)).mono hadd.mono
  · intro e he
    simp only [List.mem_append, List.mem_cons] at he
    rcases he with he | rfl | he
    · exact h.live e (hAm e he)
    · exact ⟨hpos, by simp only [rend]; omega⟩
    · exact h.live e (hrm e he)
  · intro i hi'
    simp only at hi' ⊢
    rw [hadd.ex i, h.cover i hi', hm, cov_append, cov_append, cov_cons]
    have := hsp.cov i
    have hr : rend (ns, v) = ns + v.length := by simp [rend]
    rw [hr]
    constructor
    · rintro ((h1 | h1) | h1)
      · exact .inl h1
      · rcases this.mp (.inl h1) with h2 | h2
        · exact .inr (.inr h2)
        · exact .inr (.inl h2)
      · rcases this.mp (.inr h1) with h2 | h2
        · exact .inr (.inr h2)
        · exact .inr (.inl h2)
    · rintro (h1 | h1 | h1)
      · exact .inl (.inl h1)
      · rcases this.mpr (.inr h1) with h2 | h2
        · exact .inl (.inr h2)
        · exact .inr h2
      · rcases this.mpr (.inl h1) with h2 | h2
        · exact .inl (.inr h2)
        · exact .inr h2
  · intro i hi'; obtain ⟨b, hb⟩ := h.past i hi'; exact ⟨b, hadd.mono i b hb⟩
  · intro e he
    simp only [List.mem_append, List.mem_cons] at he ⊢
    rcases he with he | rfl | he
    · have := h.endUp e (hAm e he); omega
    · simp only [rend]; omega
    · have := h.endUp e (hrm e he); omega
  · right
    simp only [List.mem_append, List.mem_cons]
    by_cases hlt : s.end_ < ne
    · have hfull : v.length = len := by
        by_contra hne
        obtain ⟨e, he, hee⟩ := hsp.trunc (by omega)
        have := h.endUp e (hrm e he); omega
      exact ⟨(ns, v), .inr (.inl rfl), by simp only [rend]; omega⟩
    · rcases h.endEq with ⟨h0, h1⟩ | ⟨e, he, hee⟩
      · omega
      · rw [hm, List.mem_append] at he
        rcases he with he | he
        · exact ⟨e, .inl he, by omega⟩
        · rcases hsp.removed e he with he | he
          · exact ⟨e, .inr (.inr he), by omega⟩
          · omega

/-- Two adjacent ranges may be merged into one entry. -/
theorem merge_adjacent {R s} {A B : SMap Bytes} {k k' : Nat} {u v : Bytes}
    (hk : k' = k + u.length) (h : Inv R s)
    (hm : s.ranges = A ++ (k, u) :: (k', v) :: B) :
    Inv R { s with ranges := A ++ (k, u ++ v) :: B } := by
  subst hk
  have hd := h.disj
  rw [hm, disj_append, disj_cons, disj_cons] at hd
  have hlive := h.live
  have hend := h.endUp
  rw [hm] at hlive hend
  have l1 := hlive (k, u) (by simp)
  have l2 := hlive (k + u.length, v) (by simp)
  have e2 := hend (k + u.length, v) (by simp)
  have hr1 : ∀ (a : Nat) (b : Bytes), rend (a, b) = a + b.length := fun a b => by simp [rend]
  rw [hr1] at l1 l2 e2
  have hupos : 0 < u.length := List.length_pos_iff.mpr l1.1
  have hra : rend (k, u ++ v) = k + u.length + v.length := by
    rw [hr1, List.length_append]; omega
  refine ⟨?_, ?_, ?_, ?_, h.past, ?_, ?_⟩
  · simp only
    rw [disj_append, disj_cons]
    refine ⟨hd.1, ⟨?_, hd.2.1.2.2⟩, ?_⟩
    · intro x hx; have := hd.2.1.2.1 x hx; rw [hr1] at this; rw [hra]; omega
    · intro x hx y hy
      rcases List.mem_cons.mp hy with rfl | hy
      · exact hd.2.2 x hx (k, u) (by simp)
      · exact hd.2.2 x hx y (by simp [hy])
  · intro e he
    simp only [List.mem_append, List.mem_cons] at he
    rcases he with he | rfl | he
    · exact h.data e (by rw [hm]; simp [he])
    · exact Ok.append (h.data (k, u) (by rw [hm]; simp)) (h.data (k + u.length, v) (by rw [hm]; simp))
    · exact h.data e (by rw [hm]; simp [he])
  · intro e he
    simp only [List.mem_append, List.mem_cons] at he
    rcases he with he | rfl | he
    · exact hlive e (by simp [he])
    · exact ⟨by simp [l1.1], by rw [hra]; simp only; omega⟩
    · exact hlive e (by simp [he])
  · intro i hi'
    rw [h.cover i hi', hm]
    simp only [cov_append, cov_cons, hra]
    simp only [hr1]
    constructor
    · rintro (h1 | h1 | h1 | h1)
      · exact .inl h1
      · exact .inr (.inl ⟨h1.1, by omega⟩)
      · exact .inr (.inl ⟨by omega, by omega⟩)
      · exact .inr (.inr h1)
    · rintro (h1 | h1 | h1)
      · exact .inl h1
      · by_cases hc : i < k + u.length
        · exact .inr (.inl ⟨h1.1, hc⟩)
        · exact .inr (.inr (.inl ⟨by omega, by omega⟩))
      · exact .inr (.inr (.inr h1))
  · intro e he
    simp only [List.mem_append, List.mem_cons] at he
    rcases he with he | rfl | he
    · exact hend e (by simp [he])
    · rw [hra]; simp only; omega
    · exact hend e (by simp [he])
  · right
    rcases h.endEq with ⟨h0, _⟩ | ⟨e, he, hee⟩
    · rw [hm] at h0; simp at h0
    · rw [hm] at he
      simp only [List.mem_append, List.mem_cons] at he ⊢
      rcases he with he | rfl | rfl | he
      · exact ⟨e, .inl he, hee⟩
      · exact ⟨(k, u ++ v), .inr (.inl rfl), by rw [hr1] at hee; rw [hra]; omega⟩
      · exact ⟨(k, u ++ v), .inr (.inl rfl), by rw [hr1] at hee; rw [hra]; omega⟩
      · exact ⟨e, .inr (.inr he), hee⟩

end Neqo.Recv
