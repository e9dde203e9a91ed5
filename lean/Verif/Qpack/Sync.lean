import Verif.Qpack.Lookup
import Verif.Qpack.Coder
import Verif.Qpack.InstrL

/-! # The tables of an encoder and of a decoder -/
namespace Neqo.Qp
open Neqo.Codec

/-- An entry as the decoder has it: without references. -/
def DEntry.plain (e : DEntry) : DEntry := { e with refs := 0 }

/-- A table as the decoder has it: without references and without acknowledgments. -/
def Table.plain (t : Table) : Table := { t with dyn := t.dyn.map DEntry.plain, acked := none }

theorem plain_size (e : DEntry) : e.plain.size = e.size := rfl

theorem plain_evict {acked : Option Nat} {reduce : Nat} {es d : List DEntry} {u u' : Nat}
    (h : evictLoop acked reduce es u = .ok (true, d, u')) :
    evictLoop none reduce (es.map DEntry.plain) u = .ok (true, d.map DEntry.plain, u') := by
  induction es generalizing u with
  | nil => cases h; rfl
  | cons e es ih =>
    unfold evictLoop at h
    rw [List.map_cons]
    unfold evictLoop
    by_cases h1 : u ≤ reduce
    · rw [if_pos h1] at h ⊢
      cases h; rfl
    · rw [if_neg h1] at h ⊢
      have h2 : e.plain.canReduce none = true := by simp [DEntry.canReduce, DEntry.plain]
      rw [h2]
      simp only [Bool.not_true, Bool.false_eq_true, if_false]
      cases h3 : e.canReduce acked
      · rw [h3] at h; simp at h
      · rw [h3] at h
        simp only [Bool.not_true, Bool.false_eq_true, if_false] at h
        rw [plain_size]
        by_cases h4 : u < e.size
        · rw [if_pos h4] at h; cases h
        · rw [if_neg h4] at h ⊢
          exact ih h

theorem plain_evictTo {t t' : Table} {reduce : Nat} (h : t.evictTo reduce = .ok (true, t')) :
    t.plain.evictTo reduce = .ok (true, t'.plain) := by
  unfold Table.evictTo at h ⊢
  cases he : evictLoop t.acked reduce t.dyn t.used with
  | error x => rw [he] at h; cases h
  | ok x =>
    obtain ⟨b, d, u⟩ := x
    rw [he] at h
    obtain ⟨rfl, rfl⟩ := Prod.mk.inj (Except.ok.inj h)
    have := plain_evict he
    show (match evictLoop none reduce (t.dyn.map DEntry.plain) t.used with | .error e => _ | .ok (b, d, u) => _) = _
    rw [this]
    rfl

/-- What the encoder inserts, the decoder inserts: it evicts the same entries. -/
theorem plain_insert {t t' : Table} {n v : Bytes} {i : Nat} (h : t.insert n v = .ok (some i, t')) :
    t.plain.insert n v = .ok (some i, t'.plain) := by
  unfold Table.insert at h ⊢
  simp only at h ⊢
  change (if (⟨t.base, n, v, 0⟩ : DEntry).size > t.capacity then _ else _) = _
  split at h
  · cases h
  · rename_i hc
    rw [if_neg hc]
    cases he : t.evictTo (t.capacity - (⟨t.base, n, v, 0⟩ : DEntry).size) with
    | error x => rw [he] at h; cases h
    | ok x =>
      obtain ⟨b, u⟩ := x
      rw [he] at h
      cases b
      · cases h
      · simp only at h
        obtain ⟨h1, h2⟩ := Prod.mk.inj (Except.ok.inj h)
        have hp := plain_evictTo he
        change (match t.plain.evictTo (t.capacity - (⟨t.base, n, v, 0⟩ : DEntry).size) with | .error e => _ | .ok (false, t) => _ | .ok (true, t) => _) = _
        rw [hp]
        rw [← h2, ← h1]
        simp [Table.plain, DEntry.plain]

/-- A change of capacity that succeeds at the encoder succeeds at the decoder. -/
theorem plain_setCapacity {t t' : Table} {c : Nat} (h : t.setCapacity c = .ok (true, t')) :
    t.plain.setCapacity c = .ok (true, t'.plain) := by
  unfold Table.setCapacity at h ⊢
  cases he : t.evictTo c with
  | error x => rw [he] at h; cases h
  | ok x =>
    obtain ⟨b, u⟩ := x
    rw [he] at h
    cases b
    · cases h
    · obtain ⟨-, h2⟩ := Prod.mk.inj (Except.ok.inj h)
      rw [plain_evictTo he, ← h2]
      rfl

theorem plain_set {l : List DEntry} {p : Nat} {e e' : DEntry} (h : l[p]? = some e) (he : e'.plain = e.plain) :
    (l.set p e').map DEntry.plain = l.map DEntry.plain := by
  rw [List.map_set, he]
  apply List.ext_getElem?
  intro j
  rw [List.getElem?_set]
  split
  · rename_i hj
    subst hj
    rw [List.getElem?_map, h]
    have := (List.getElem?_eq_some_iff.mp h).1
    simp [this]
  · rfl

theorem plain_addRef {t t' : Table} {i : Nat} (h : t.addRef i = .ok t') : t'.plain = t.plain := by
  unfold Table.addRef at h
  split at h
  · cases h
  · split at h
    · cases h
    · rename_i e he
      cases h
      have := plain_set (e' := { e with refs := e.refs + 1 }) he rfl
      simp only [Table.plain, this]

theorem plain_removeRef {t t' : Table} {i : Nat} (h : t.removeRef i = .ok t') : t'.plain = t.plain := by
  unfold Table.removeRef at h
  split at h
  · cases h
  · split at h
    · cases h
    · rename_i e he
      split at h
      · cases h
      · cases h
        have := plain_set (e' := { e with refs := e.refs - 1 }) he rfl
        simp only [Table.plain, this]

theorem plain_incrementAcked {t t' : Table} {n : Nat} (h : t.incrementAcked n = .ok t') : t'.plain = t.plain := by
  unfold Table.incrementAcked at h
  split at h
  · cases h
  · split at h
    · cases h
    · cases h; rfl

theorem plain_dropped (t : Table) : t.plain.dropped = t.dropped := by
  unfold Table.dropped Table.plain; simp

theorem plain_total (l : List DEntry) : total (l.map DEntry.plain) = total l := by
  unfold total
  rw [List.map_map]
  rfl

theorem plain_wf {t : Table} (ht : t.WF) : t.plain.WF where
  len := by have := ht.len; unfold Table.plain; simpa using this
  index := by
    intro j e he
    rw [plain_dropped]
    unfold Table.plain at he
    rw [List.getElem?_map] at he
    cases h : t.dyn[j]? with
    | none => rw [h] at he; cases he
    | some x =>
      rw [h] at he
      cases he
      exact ht.index j x h
  used := by
    unfold Table.plain
    rw [plain_total]; exact ht.used
  fits := ht.fits
  acked := by intro a ha; cases ha

theorem plain_at (t : Table) (i : Nat) : t.plain.at i = (t.at i).map DEntry.plain := by
  unfold Table.at Table.plain
  simp only [List.find?_map]
  rfl

/-! ## The table of a decoder grows older -/

/-- What one table has become. -/
structure Later (u u' : Table) : Prop where
  base : u.base ≤ u'.base
  dropped : u.dropped ≤ u'.dropped
  kept : ∀ i e, u'.at i = some e → i < u.base → u.at i = some e

theorem Later.refl (u : Table) : Later u u := ⟨Nat.le_refl _, Nat.le_refl _, fun _ _ h _ => h⟩

theorem Later.trans {a b c : Table} (h1 : Later a b) (h2 : Later b c) : Later a c :=
  ⟨Nat.le_trans h1.base h2.base, Nat.le_trans h1.dropped h2.dropped,
    fun i e h hi => h1.kept i e (h2.kept i e h (Nat.lt_of_lt_of_le hi h1.base)) hi⟩

theorem later_insert {u u' : Table} (hw : u.WF) {n v : Bytes} {r : Option Nat} (h : u.insert n v = .ok (r, u')) :
    u'.WF ∧ Later u u' ∧ u'.capacity = u.capacity ∧ u'.acked = u.acked := by
  obtain ⟨r', u'', k, h1, h2, h3, h4, h5, h6, h7, -⟩ := insert_ok hw n v
  rw [h] at h1
  obtain ⟨rfl, rfl⟩ := Prod.mk.inj (Except.ok.inj h1)
  have hl := hw.len
  have hl' := h2.len
  refine ⟨h2, ?_, h3, h4⟩
  cases r with
  | none =>
    obtain ⟨h8, h9⟩ := h7
    have hd : u'.dropped = u.dropped + k := by unfold Table.dropped; rw [h8, h9, List.length_drop]; omega
    refine ⟨by omega, by omega, fun i e he hi => ?_⟩
    obtain ⟨g1, g2⟩ := (at_iff h2).mp he
    rw [h8, List.getElem?_drop] at g2
    exact (at_iff hw).mpr ⟨by omega, by rw [← g2]; congr 1; omega⟩
  | some j =>
    obtain ⟨-, h8, h9⟩ := h7
    have hd : u'.dropped = u.dropped + k := by
      unfold Table.dropped; rw [h8, h9, List.length_append, List.length_drop, List.length_singleton]; omega
    refine ⟨by omega, by omega, fun i e he hi => ?_⟩
    obtain ⟨g1, g2⟩ := (at_iff h2).mp he
    have hb : u.dropped + u.dyn.length = u.base := by unfold Table.dropped; omega
    rw [h8, List.getElem?_append_left (by rw [List.length_drop]; omega), List.getElem?_drop] at g2
    exact (at_iff hw).mpr ⟨by omega, by rw [← g2]; congr 1; omega⟩

theorem later_setCapacity {u u' : Table} (hw : u.WF) {c : Nat} {b : Bool} (h : u.setCapacity c = .ok (b, u')) :
    u'.WF ∧ Later u u' ∧ u'.acked = u.acked ∧ u'.capacity = (if b then c else u.capacity) := by
  obtain ⟨b', u'', k, h1, h2, h3, h4, -⟩ := setCapacity_ok hw c
  rw [h] at h1
  obtain ⟨rfl, rfl⟩ := Prod.mk.inj (Except.ok.inj h1)
  have hd := h2.dropped hw
  refine ⟨h3, ⟨by rw [h2.base], by omega, fun i e he hi => ?_⟩, h2.acked, h4⟩
  rw [h2.at hw h3] at he
  split at he
  · exact he
  · cases he

theorem insertResult_ok {r : Except Err (Option Nat × Table)} {t : Table} (h : insertResult r = .ok t) :
    ∃ i, r = .ok (some i, t) := by
  unfold insertResult at h
  split at h
  · cases h; exact ⟨_, rfl⟩
  · cases h
  · cases h
  · cases h

/-- One instruction at a decoder. -/
theorem later_exec {m : Nat} {u u' : Table} (hw : u.WF) {i : EncInstr} (h : execTable m u i = .ok u') :
    u'.WF ∧ Later u u' ∧ u'.acked = u.acked ∧ (u.capacity ≤ m → u'.capacity ≤ m) := by
  have hins : ∀ {n v}, (∃ j, u.insert n v = .ok (some j, u')) →
      u'.WF ∧ Later u u' ∧ u'.acked = u.acked ∧ (u.capacity ≤ m → u'.capacity ≤ m) := by
    rintro n v ⟨j, hj⟩
    obtain ⟨h1, h2, h3, h4⟩ := later_insert hw hj
    exact ⟨h1, h2, h4, by rw [h3]; exact id⟩
  cases i with
  | capacity v =>
    unfold execTable at h
    simp only at h
    split at h
    · cases h
    · rename_i hv
      cases hs : u.setCapacity v with
      | error x => rw [hs] at h; cases h
      | ok x =>
        obtain ⟨b, t⟩ := x
        rw [hs] at h
        cases b
        · cases h
        · cases h
          obtain ⟨h1, h2, h3, h4⟩ := later_setCapacity hw hs
          exact ⟨h1, h2, h3, by rw [h4]; simp; omega⟩
  | insertStatic j v =>
    obtain ⟨k, h⟩ := insertResult_ok h
    unfold Table.insertWithNameRef at h
    simp only [if_true] at h
    split at h
    · cases h
    · exact hins ⟨k, h⟩
  | insertDynamic j v =>
    obtain ⟨k, h⟩ := insertResult_ok h
    unfold Table.insertWithNameRef at h
    simp only [Bool.false_eq_true, if_false] at h
    split at h
    · cases h
    · exact hins ⟨k, h⟩
  | insertLiteral n v => exact hins (insertResult_ok h)
  | duplicate j =>
    obtain ⟨k, h⟩ := insertResult_ok h
    unfold Table.duplicate at h
    split at h
    · cases h
    · exact hins ⟨k, h⟩

theorem later_run {m : Nat} {u u' : Table} (hw : u.WF) {is : List EncInstr} (h : runAll (execTable m) u is = .ok u') :
    u'.WF ∧ Later u u' ∧ u'.acked = u.acked ∧ (u.capacity ≤ m → u'.capacity ≤ m) := by
  induction is generalizing u with
  | nil => cases h; exact ⟨hw, Later.refl _, rfl, id⟩
  | cons i is ih =>
    unfold runAll at h
    cases hx : execTable m u i with
    | error x => rw [hx] at h; cases h
    | ok w =>
      rw [hx] at h
      obtain ⟨h1, h2, h3, h4⟩ := later_exec hw hx
      obtain ⟨g1, g2, g3, g4⟩ := ih h1 h
      exact ⟨g1, h2.trans g2, g3.trans h3, fun hc => g4 (h4 hc)⟩

end Neqo.Qp
