import Verif.Qpack.Table
import Mathlib.Tactic.Ring
import Mathlib.Tactic.NormNum

/-! # Lemmas about the dynamic table -/
namespace Neqo.Qp
open Neqo.Codec

/-- The bytes that entries take in the table. -/
def total (es : List DEntry) : Nat := (es.map DEntry.size).sum

theorem total_nil : total [] = 0 := rfl

theorem total_cons (e : DEntry) (es : List DEntry) : total (e :: es) = e.size + total es := by simp [total]

theorem total_append (a b : List DEntry) : total (a ++ b) = total a + total b := by simp [total]

theorem total_split (k : Nat) (es : List DEntry) : total es = total (es.take k) + total (es.drop k) := by
  rw [← total_append, List.take_append_drop]

theorem size_ge (e : DEntry) : 32 ≤ e.size := by unfold DEntry.size entryOverhead; omega

theorem total_ge (es : List DEntry) : 32 * es.length ≤ total es := by
  induction es with
  | nil => simp [total]
  | cons e es ih => have := size_ge e; rw [total_cons, List.length_cons]; omega

/-- The number of entries that were evicted. -/
def Table.dropped (t : Table) : Nat := t.base - t.dyn.length

/-- Tables that occur. -/
structure Table.WF (t : Table) : Prop where
  len : t.dyn.length ≤ t.base
  index : ∀ (j : Nat) (e : DEntry), t.dyn[j]? = some e → e.base = t.dropped + j
  used : t.used = total t.dyn
  fits : t.used ≤ t.capacity
  acked : ∀ a ∈ t.acked, a ≤ t.base

theorem evict_spec (acked : Option Nat) (reduce : Nat) (es : List DEntry) :
    ∃ b k, k ≤ es.length ∧ evictLoop acked reduce es (total es) = .ok (b, es.drop k, total (es.drop k)) ∧
      (∀ e ∈ es.take k, e.canReduce acked = true) ∧ (b = true → total (es.drop k) ≤ reduce) ∧
      (b = false → reduce < total (es.drop k) ∧ ∃ e, es[k]? = some e ∧ e.canReduce acked = false) ∧
      ∀ j < k, reduce < total (es.drop j) := by
  induction es with
  | nil => exact ⟨true, 0, by simp, rfl, by simp, by simp [total], by simp, by omega⟩
  | cons e es ih =>
    unfold evictLoop
    by_cases h1 : total (e :: es) ≤ reduce
    · exact ⟨true, 0, by simp, if_pos h1, by simp, fun _ => h1, by simp, by omega⟩
    · rw [if_neg h1]
      cases h2 : e.canReduce acked
      · exact ⟨false, 0, by simp, by simp, by simp, by simp, fun _ => ⟨by simpa using h1, e, rfl, h2⟩, by omega⟩
      · have h3 : ¬ total (e :: es) < e.size := by rw [total_cons]; omega
        have h4 : total (e :: es) - e.size = total es := by rw [total_cons]; omega
        obtain ⟨b, k, i1, i2, i3, i4, i5, i6⟩ := ih
        refine ⟨b, k + 1, by simpa using i1, ?_, ?_, by simpa using i4, by simpa using i5, ?_⟩
        · simp only [Bool.not_true, Bool.false_eq_true, if_false, h3, h4, i2, List.drop_succ_cons]
        · intro x hx
          rw [List.take_succ_cons] at hx
          rcases List.mem_cons.mp hx with rfl | hx
          · exact h2
          · exact i3 x hx
        · intro j hj
          cases j with
          | zero => simpa using h1
          | succ j => exact i6 j (by omega)

theorem takeWhile_all {α : Type} {p : α → Bool} {es : List α} {k : Nat} (h : ∀ e ∈ es.take k, p e = true) :
    ∃ r, es.dropWhile p = (es.drop k).dropWhile p ∧ r = k := by
  induction k generalizing es with
  | zero => exact ⟨0, rfl, rfl⟩
  | succ k ih =>
    cases es with
    | nil => exact ⟨_, rfl, rfl⟩
    | cons e es =>
      rw [List.take_succ_cons] at h
      obtain ⟨r, h1, -⟩ := ih (es := es) (fun x hx => h x (List.mem_cons_of_mem _ hx))
      refine ⟨_, ?_, rfl⟩
      rw [List.dropWhile_cons_of_pos (h e (List.mem_cons_self ..)), List.drop_succ_cons, h1]

theorem total_dropWhile (p : DEntry → Bool) (es : List DEntry) : total (es.dropWhile p) ≤ total es := by
  have : total es = total (es.takeWhile p) + total (es.dropWhile p) := by
    rw [← total_append, List.takeWhile_append_dropWhile]
  omega

/-- What is checked before an eviction is exactly whether it will succeed. -/
theorem canEvict_eq {t : Table} (ht : t.WF) (reduce : Nat) :
    ∃ b t', t.evictTo reduce = .ok (b, t') ∧ t.canEvictTo reduce = .ok b := by
  obtain ⟨b, k, h1, h2, h3, h4, h5, -⟩ := evict_spec t.acked reduce t.dyn
  refine ⟨b, { t with dyn := t.dyn.drop k, used := total (t.dyn.drop k) }, by unfold Table.evictTo; rw [ht.used, h2], ?_⟩
  unfold Table.canEvictTo
  have hs : total t.dyn = total (t.dyn.takeWhile (fun e : DEntry => e.canReduce t.acked)) + total (t.dyn.dropWhile (fun e : DEntry => e.canReduce t.acked)) := by
    rw [← total_append, List.takeWhile_append_dropWhile]
  have hu := ht.used
  have hd := (takeWhile_all (p := fun e : DEntry => e.canReduce t.acked) h3).choose_spec.1
  show (if t.used < total (t.dyn.takeWhile (fun e : DEntry => e.canReduce t.acked)) then _ else _) = _
  rw [if_neg (by omega)]
  congr 1
  have he : t.used - total (t.dyn.takeWhile (fun e : DEntry => e.canReduce t.acked)) = total (t.dyn.dropWhile (fun e : DEntry => e.canReduce t.acked)) := by omega
  change decide (t.used - total (t.dyn.takeWhile (fun e : DEntry => e.canReduce t.acked)) ≤ reduce) = b
  rw [he, hd]
  cases b
  · obtain ⟨h6, e, h7, h8⟩ := h5 rfl
    have : t.dyn.drop k = e :: t.dyn.drop (k + 1) := by
      rw [List.drop_eq_getElem_cons (List.getElem?_eq_some_iff.mp h7).1]
      congr 1
      exact (List.getElem?_eq_some_iff.mp h7).2
    rw [this, List.dropWhile_cons_of_neg (by simp [h8]), ← this]
    simpa using h6
  · have := total_dropWhile (fun e : DEntry => e.canReduce t.acked) (t.dyn.drop k)
    have := h4 rfl
    simp; omega

/-- Entries were evicted, the oldest first, all of which could be. -/
structure Evicted (t t' : Table) (k : Nat) : Prop where
  le : k ≤ t.dyn.length
  dyn : t'.dyn = t.dyn.drop k
  base : t'.base = t.base
  acked : t'.acked = t.acked
  free : ∀ e ∈ t.dyn.take k, e.canReduce t.acked = true
  used : t'.used = total t'.dyn

theorem Evicted.dropped {t t' : Table} {k : Nat} (h : Evicted t t' k) (ht : t.WF) : t'.dropped = t.dropped + k := by
  have := ht.len
  have := h.le
  unfold Table.dropped
  rw [h.dyn, h.base, List.length_drop]; omega

theorem Evicted.wf {t t' : Table} {k : Nat} (h : Evicted t t' k) (ht : t.WF) (hc : t'.used ≤ t'.capacity) : t'.WF where
  len := by have := ht.len; rw [h.dyn, h.base, List.length_drop]; omega
  index := by
    intro j e he
    rw [h.dyn, List.getElem?_drop] at he
    rw [h.dropped ht, ht.index _ _ he]; omega
  used := h.used
  fits := hc
  acked := by rw [h.acked, h.base]; exact ht.acked

theorem evict_ok {t : Table} (ht : t.WF) (reduce : Nat) :
    ∃ b t' k, t.evictTo reduce = .ok (b, t') ∧ Evicted t t' k ∧ t'.capacity = t.capacity ∧ t'.used ≤ t.used ∧
      (b = true → t'.used ≤ reduce) ∧ (b = false → ∃ e, t.dyn[k]? = some e ∧ e.canReduce t.acked = false) ∧
      ∀ j < k, reduce < total (t.dyn.drop j) := by
  obtain ⟨b, k, h1, h2, h3, h4, h5, h6⟩ := evict_spec t.acked reduce t.dyn
  refine ⟨b, { t with dyn := t.dyn.drop k, used := total (t.dyn.drop k) }, k, by unfold Table.evictTo; rw [ht.used, h2],
    ⟨h1, rfl, rfl, rfl, h3, rfl⟩, rfl, ?_, h4,
    fun hb => (h5 hb).2, h6⟩
  have := total_split k t.dyn
  rw [ht.used]
  simp only
  omega

theorem setCapacity_ok {t : Table} (ht : t.WF) (cap : Nat) :
    ∃ b t' k, t.setCapacity cap = .ok (b, t') ∧ Evicted t t' k ∧ t'.WF ∧ t'.capacity = (if b then cap else t.capacity) ∧
      t.canEvictTo cap = .ok b := by
  obtain ⟨b, t', k, h1, h2, h3, h4, h5, h6, -⟩ := evict_ok ht cap
  obtain ⟨b', t'', h7, h8⟩ := canEvict_eq ht cap
  rw [h1] at h7
  obtain ⟨rfl, rfl⟩ := Prod.mk.inj (Except.ok.inj h7)
  have hf := ht.fits
  unfold Table.setCapacity
  rw [h1]
  cases b
  · exact ⟨false, t', k, rfl, h2, h2.wf ht (by omega), h3, h8⟩
  · have := h5 rfl
    exact ⟨true, _, k, rfl, ⟨h2.le, h2.dyn, h2.base, h2.acked, h2.free, h2.used⟩,
      Evicted.wf ⟨h2.le, h2.dyn, h2.base, h2.acked, h2.free, h2.used⟩ ht this, rfl, h8⟩

theorem insert_ok {t : Table} (ht : t.WF) (name value : Bytes) :
    ∃ r t' k, t.insert name value = .ok (r, t') ∧ t'.WF ∧ t'.capacity = t.capacity ∧ t'.acked = t.acked ∧
      k ≤ t.dyn.length ∧ (∀ e ∈ t.dyn.take k, e.canReduce t.acked = true) ∧
      (match r with
        | none => t'.dyn = t.dyn.drop k ∧ t'.base = t.base
        | some i => i = t.base ∧ t'.dyn = t.dyn.drop k ++ [⟨t.base, name, value, 0⟩] ∧ t'.base = t.base + 1) ∧
      t.insertPossible (name.length + value.length + 32) = .ok r.isSome := by
  have hsz : (⟨t.base, name, value, 0⟩ : DEntry).size = name.length + value.length + 32 := rfl
  have hf := ht.fits
  unfold Table.insert Table.insertPossible
  simp only [hsz]
  by_cases h0 : name.length + value.length + 32 > t.capacity
  · rw [if_pos h0, if_neg (by omega)]
    exact ⟨none, t, 0, rfl, ht, rfl, rfl, by omega, by simp, ⟨rfl, rfl⟩, rfl⟩
  · rw [if_neg h0, if_pos (by omega)]
    obtain ⟨b, t', k, h1, h2, h3, h4, h5, h6, -⟩ := evict_ok ht (t.capacity - (name.length + value.length + 32))
    obtain ⟨b', t'', h7, h8⟩ := canEvict_eq ht (t.capacity - (name.length + value.length + 32))
    rw [h1] at h7
    obtain ⟨rfl, rfl⟩ := Prod.mk.inj (Except.ok.inj h7)
    rw [h1]
    have hw := h2.wf ht (by omega)
    cases b
    · exact ⟨none, t', k, rfl, hw, h3, h2.acked, h2.le, h2.free, ⟨h2.dyn, h2.base⟩, h8⟩
    · have h5 := h5 rfl
      refine ⟨some t.base, _, k, rfl, ?_, h3, h2.acked, h2.le, h2.free, ⟨rfl, by simp only [h2.dyn], by simp only [h2.base]⟩, h8⟩
      have hl := hw.len
      have hd : ({ t' with base := t'.base + 1, used := t'.used + (name.length + value.length + 32), dyn := t'.dyn ++ [⟨t.base, name, value, 0⟩] } : Table).dropped = t'.dropped := by
        unfold Table.dropped; simp only [List.length_append, List.length_singleton]; omega
      refine ⟨by simp only [List.length_append, List.length_singleton]; omega, ?_, ?_, ?_, ?_⟩
      · intro j e he
        rw [hd]
        simp only at he
        by_cases hj : j < t'.dyn.length
        · rw [List.getElem?_append_left hj] at he; exact hw.index j e he
        · rw [List.getElem?_append_right (by omega)] at he
          have hj0 : j - t'.dyn.length = 0 := by
            rcases Nat.eq_zero_or_pos (j - t'.dyn.length) with h | h
            · exact h
            · rw [List.getElem?_eq_none (by simp; omega)] at he; cases he
          rw [hj0] at he
          cases he
          have := h2.base
          unfold Table.dropped; simp only; omega
      · simp only
        rw [total_append, total_cons, total_nil, hw.used, hsz]
      · simp only; omega
      · intro a ha
        have := hw.acked a ha
        simp only; omega

/-- The entry with an absolute index. -/
def Table.at (t : Table) (i : Nat) : Option DEntry := t.dyn.find? (fun e => decide (e.base = i))

theorem at_some {t : Table} {i : Nat} {e : DEntry} (h : t.at i = some e) : e ∈ t.dyn ∧ e.base = i := by
  unfold Table.at at h
  exact ⟨List.mem_of_find?_eq_some h, by simpa using List.find?_some h⟩

theorem at_iff {t : Table} (ht : t.WF) {i : Nat} {e : DEntry} :
    t.at i = some e ↔ t.dropped ≤ i ∧ t.dyn[i - t.dropped]? = some e := by
  constructor
  · intro h
    obtain ⟨h1, h2⟩ := at_some h
    obtain ⟨j, hj⟩ := List.mem_iff_getElem?.mp h1
    have := ht.index j e hj
    exact ⟨by omega, by rw [show i - t.dropped = j by omega]; exact hj⟩
  · rintro ⟨h1, h2⟩
    unfold Table.at
    rw [List.find?_eq_some_iff_getElem]
    obtain ⟨h3, h4⟩ := List.getElem?_eq_some_iff.mp h2
    have := ht.index _ _ h2
    refine ⟨by simp; omega, i - t.dropped, h3, h4, ?_⟩
    intro j hj
    have := ht.index j t.dyn[j] (List.getElem?_eq_getElem (by omega))
    simp; omega

theorem at_mem {t : Table} (ht : t.WF) {e : DEntry} (h : e ∈ t.dyn) : t.at e.base = some e := by
  obtain ⟨j, hj⟩ := List.mem_iff_getElem?.mp h
  have := ht.index j e hj
  exact (at_iff ht).mpr ⟨by omega, by rw [show e.base - t.dropped = j by omega]; exact hj⟩

theorem at_range {t : Table} (ht : t.WF) {i : Nat} : (t.at i).isSome ↔ t.dropped ≤ i ∧ i < t.base := by
  have hl := ht.len
  have hd : t.dropped + t.dyn.length = t.base := by unfold Table.dropped; omega
  constructor
  · intro h
    obtain ⟨e, he⟩ := Option.isSome_iff_exists.mp h
    obtain ⟨h1, h2⟩ := (at_iff ht).mp he
    have := (List.getElem?_eq_some_iff.mp h2).1
    exact ⟨h1, by omega⟩
  · rintro ⟨h1, h2⟩
    have h3 : i - t.dropped < t.dyn.length := by omega
    exact Option.isSome_iff_exists.mpr ⟨_, (at_iff ht).mpr ⟨h1, List.getElem?_eq_getElem h3⟩⟩

theorem at_of_index {t : Table} (ht : t.WF) {i : Nat} {e : DEntry} (h : t.at i = some e) : t.dropped ≤ i ∧ i < t.base :=
  (at_range ht).mp (by rw [h]; rfl)

theorem Evicted.at {t t' : Table} {k : Nat} (h : Evicted t t' k) (ht : t.WF) (ht' : t'.WF) {i : Nat} :
    t'.at i = if t.dropped + k ≤ i then t.at i else none := by
  have hd := h.dropped ht
  split
  · rename_i hi
    cases he : t.at i with
    | none =>
      cases he' : t'.at i with
      | none => rfl
      | some e =>
        exfalso
        have h1 := at_of_index ht' he'
        have : (t.at i).isSome := (at_range ht).mpr ⟨by omega, by rw [h.base] at h1; exact h1.2⟩
        rw [he] at this; cases this
    | some e =>
      obtain ⟨h1, h2⟩ := (at_iff ht).mp he
      refine (at_iff ht').mpr ⟨by omega, ?_⟩
      rw [h.dyn, List.getElem?_drop, hd, show k + (i - (t.dropped + k)) = i - t.dropped by omega]
      exact h2
  · rename_i hi
    cases he' : t'.at i with
    | none => rfl
    | some e =>
      have h1 := at_of_index ht' he'
      omega

theorem getRel_ok {t : Table} (ht : t.WF) {inx : Nat} {e : DEntry} :
    t.getRel inx = .ok e ↔ ∃ i, i + inx + 1 = t.base ∧ t.at i = some e := by
  have hl := ht.len
  unfold Table.getRel Table.place
  by_cases h : inx < t.dyn.length
  · rw [if_pos h]
    simp only
    have hlt : t.dyn.length - 1 - inx < t.dyn.length := by omega
    rw [List.getElem?_eq_getElem hlt]
    have hidx : t.base - 1 - inx - t.dropped = t.dyn.length - 1 - inx := by unfold Table.dropped; omega
    have hdr : t.dropped ≤ t.base - 1 - inx := by unfold Table.dropped; omega
    have hat : t.at (t.base - 1 - inx) = some t.dyn[t.dyn.length - 1 - inx] :=
      (at_iff ht).mpr ⟨hdr, by rw [hidx]; exact List.getElem?_eq_getElem hlt⟩
    constructor
    · intro h1
      cases h1
      exact ⟨t.base - 1 - inx, by omega, hat⟩
    · rintro ⟨i, h1, h2⟩
      rw [show i = t.base - 1 - inx by omega, hat] at h2
      cases h2; rfl
  · rw [if_neg h]
    constructor
    · intro h1; cases h1
    · rintro ⟨i, h1, h2⟩
      have h3 := at_of_index ht h2
      unfold Table.dropped at h3
      omega

/-- References relative to a base. -/
theorem getDynamic_ok {t : Table} (ht : t.WF) (h64 : t.base < 2 ^ 64) {index base : Nat} {post : Bool} {e : DEntry} :
    t.getDynamic index base post = .ok e ↔
      (post = true ∨ t.base + index < 2 ^ 64) ∧
      ∃ i, (if post then i = base + index else i + index + 1 = base) ∧ t.at i = some e := by
  unfold Table.getDynamic
  cases post
  · simp only [Bool.false_eq_true, if_false, false_or]
    by_cases h1 : t.base + index ≥ 2 ^ 64
    · rw [if_pos h1]
      constructor
      · intro h; cases h
      · rintro ⟨h, _⟩; omega
    · rw [if_neg h1]
      by_cases h2 : t.base + index < base
      · rw [if_pos h2]
        constructor
        · intro h; cases h
        · rintro ⟨_, i, h3, h4⟩
          have := at_of_index ht h4; omega
      · rw [if_neg h2, getRel_ok ht]
        constructor
        · rintro ⟨i, h3, h4⟩
          have := at_of_index ht h4
          exact ⟨by omega, i, by omega, h4⟩
        · rintro ⟨_, i, h3, h4⟩
          exact ⟨i, by omega, h4⟩
  · simp only [if_true, true_or, true_and]
    by_cases h1 : base + index + 1 ≥ 2 ^ 64
    · rw [if_pos h1]
      constructor
      · intro h; cases h
      · rintro ⟨i, h3, h4⟩
        have := at_of_index ht h4; omega
    · rw [if_neg h1]
      by_cases h2 : t.base < base + index + 1
      · rw [if_pos h2]
        constructor
        · intro h; cases h
        · rintro ⟨i, h3, h4⟩
          have := at_of_index ht h4; omega
      · rw [if_neg h2, getRel_ok ht]
        constructor
        · rintro ⟨i, h3, h4⟩
          exact ⟨i, by omega, h4⟩
        · rintro ⟨i, h3, h4⟩
          exact ⟨i, by omega, h4⟩

theorem getDynamic_inv {t : Table} (ht : t.WF) {index base : Nat} {post : Bool} {e : DEntry}
    (h : t.getDynamic index base post = .ok e) :
    ∃ i, (if post then i = base + index else i + index + 1 = base) ∧ t.at i = some e := by
  unfold Table.getDynamic at h
  cases post
  · simp only [Bool.false_eq_true, if_false] at h ⊢
    split at h
    · cases h
    · split at h
      · cases h
      · obtain ⟨i, h3, h4⟩ := (getRel_ok ht).mp h
        have := at_of_index ht h4
        exact ⟨i, by omega, h4⟩
  · simp only [if_true] at h ⊢
    split at h
    · cases h
    · split at h
      · cases h
      · obtain ⟨i, h3, h4⟩ := (getRel_ok ht).mp h
        exact ⟨i, by omega, h4⟩

theorem placeAbs_ok {t : Table} (ht : t.WF) {i : Nat} {e : DEntry} (h : t.at i = some e) :
    ∃ p, t.placeAbs i = .ok p ∧ t.dyn[p]? = some e ∧ p = i - t.dropped := by
  have hr := at_of_index ht h
  have hl := ht.len
  obtain ⟨h1, h2⟩ := (at_iff ht).mp h
  have hd : t.dropped + t.dyn.length = t.base := by unfold Table.dropped; omega
  refine ⟨i - t.dropped, ?_, h2, rfl⟩
  unfold Table.placeAbs Table.place
  rw [if_neg (by omega), if_pos (by omega)]
  simp only
  congr 1
  omega

theorem set_wf {t : Table} (ht : t.WF) {p : Nat} {e : DEntry} (hp : t.dyn[p]? = some e) (n : Nat) :
    ({ t with dyn := t.dyn.set p { e with refs := n } } : Table).WF := by
  have hpl := (List.getElem?_eq_some_iff.mp hp).1
  have hd : ({ t with dyn := t.dyn.set p { e with refs := n } } : Table).dropped = t.dropped := by
    unfold Table.dropped; simp
  have htot : total (t.dyn.set p { e with refs := n }) = total t.dyn := by
    have h1 : (t.dyn.set p { e with refs := n }).map DEntry.size = t.dyn.map DEntry.size := by
      rw [List.map_set]
      have : DEntry.size { e with refs := n } = e.size := rfl
      rw [this]
      apply List.ext_getElem?
      intro j
      rw [List.getElem?_set]
      split
      · rename_i hj
        subst hj
        rw [List.getElem?_map, hp]
        simp [hpl]
      · rfl
    unfold total; rw [h1]
  refine ⟨by simpa using ht.len, ?_, ?_, ht.fits, ht.acked⟩
  · intro j x hx
    rw [hd]
    simp only at hx
    rw [List.getElem?_set] at hx
    split at hx
    · rename_i hj
      subst hj
      cases hx
      exact ht.index p e hp
    · exact ht.index j x hx
  · simp only [htot]; exact ht.used

theorem set_at {t : Table} (ht : t.WF) {i : Nat} {e : DEntry} (h : t.at i = some e) (n j : Nat) :
    ({ t with dyn := t.dyn.set (i - t.dropped) { e with refs := n } } : Table).at j =
      if j = i then some { e with refs := n } else t.at j := by
  obtain ⟨h1, h2⟩ := (at_iff ht).mp h
  have hpl := (List.getElem?_eq_some_iff.mp h2).1
  have hw := set_wf ht h2 n
  have hd : ({ t with dyn := t.dyn.set (i - t.dropped) { e with refs := n } } : Table).dropped = t.dropped := by
    unfold Table.dropped; simp
  split
  · rename_i hj
    subst hj
    refine (at_iff hw).mpr ⟨by rw [hd]; exact h1, ?_⟩
    rw [hd]
    simp only
    rw [List.getElem?_set, if_pos rfl, if_pos hpl]
  · rename_i hj
    cases hx : t.at j with
    | none =>
      cases hy : ({ t with dyn := t.dyn.set (i - t.dropped) { e with refs := n } } : Table).at j with
      | none => rfl
      | some y =>
        have h3 := at_of_index hw hy
        rw [hd] at h3
        have : (t.at j).isSome := (at_range ht).mpr h3
        rw [hx] at this; cases this
    | some x =>
      obtain ⟨h3, h4⟩ := (at_iff ht).mp hx
      refine (at_iff hw).mpr ⟨by rw [hd]; exact h3, ?_⟩
      rw [hd]
      simp only
      rw [List.getElem?_set, if_neg (by omega)]
      exact h4

theorem addRef_ok {t : Table} (ht : t.WF) {i : Nat} {e : DEntry} (h : t.at i = some e) :
    ∃ t', t.addRef i = .ok t' ∧ t'.WF ∧ t'.base = t.base ∧ t'.capacity = t.capacity ∧ t'.acked = t.acked ∧
      t'.dyn.length = t.dyn.length ∧ ∀ j, t'.at j = if j = i then some { e with refs := e.refs + 1 } else t.at j := by
  obtain ⟨p, h1, h2, rfl⟩ := placeAbs_ok ht h
  refine ⟨{ t with dyn := t.dyn.set (i - t.dropped) { e with refs := e.refs + 1 } }, ?_, set_wf ht h2 _, rfl, rfl, rfl, by simp, set_at ht h _⟩
  unfold Table.addRef
  rw [h1]
  simp only [h2]

theorem removeRef_ok {t : Table} (ht : t.WF) {i : Nat} {e : DEntry} (h : t.at i = some e) (hr : 0 < e.refs) :
    ∃ t', t.removeRef i = .ok t' ∧ t'.WF ∧ t'.base = t.base ∧ t'.capacity = t.capacity ∧ t'.acked = t.acked ∧
      t'.dyn.length = t.dyn.length ∧ ∀ j, t'.at j = if j = i then some { e with refs := e.refs - 1 } else t.at j := by
  obtain ⟨p, h1, h2, rfl⟩ := placeAbs_ok ht h
  refine ⟨{ t with dyn := t.dyn.set (i - t.dropped) { e with refs := e.refs - 1 } }, ?_, set_wf ht h2 _, rfl, rfl, rfl, by simp, set_at ht h _⟩
  unfold Table.removeRef
  rw [h1]
  simp only [h2]
  rw [if_neg (by omega)]

end Neqo.Qp
