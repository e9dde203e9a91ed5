import Verif.Qpack.TableL

/-! # Finding fields in the tables -/
namespace Neqo.Qp
open Neqo.Codec

theorem static_index : staticTable.zipIdx.all (fun x => x.1.index == x.2) = true := by decide +kernel

theorem static_at {e : SEntry} (h : e ∈ staticTable) : staticTable[e.index]? = some e := by
  obtain ⟨j, hj⟩ := List.mem_iff_getElem?.mp h
  have h1 : (e, j) ∈ staticTable.zipIdx := List.mem_zipIdx_iff_getElem?.mpr hj
  have h2 := List.all_eq_true.mp static_index _ h1
  simp only [beq_iff_eq] at h2
  rw [h2]; exact hj

/-- What was found is in one of the tables. -/
def Found.Ok (t : Table) (name value : Bytes) (canBlock : Bool) (f : Found) : Prop :=
  if f.isStatic then ∃ e, staticTable[f.index]? = some e ∧ e.name = name ∧ (f.valueMatches = true → e.value = value)
  else ∃ e, t.at f.index = some e ∧ e.name = name ∧ (f.valueMatches = true → e.value = value) ∧
    (canBlock = false → ∀ a ∈ t.acked, f.index < a)

theorem staticLoop_ok {t : Table} {name value : Bytes} {canBlock : Bool} {es : List SEntry} {m : Option Found}
    (hes : ∀ e ∈ es, e ∈ staticTable) (hm : ∀ f ∈ m, f.Ok t name value canBlock) :
    ∀ f ∈ staticLoop name value es m, f.Ok t name value canBlock := by
  induction es generalizing m with
  | nil => exact hm
  | cons e es ih =>
    have he := static_at (hes e (List.mem_cons_self ..))
    have hes' := fun x hx => hes x (List.mem_cons_of_mem _ hx)
    unfold staticLoop
    split
    · rename_i hn
      split
      · rename_i hv
        intro f hf
        cases hf
        exact ⟨e, he, hn, fun _ => hv⟩
      · refine ih hes' ?_
        intro f hf
        cases m with
        | none =>
          cases hf
          exact ⟨e, he, hn, (fun h => by cases h)⟩
        | some x => exact hm f hf
    · exact ih hes' hm

theorem staticLookup_ok {t : Table} {name value : Bytes} {canBlock : Bool} :
    ∀ f ∈ staticLookup name value, f.Ok t name value canBlock :=
  staticLoop_ok (fun _ h => h) (by simp)

theorem dynLoop_ok {t : Table} (ht : t.WF) {name value : Bytes} {canBlock : Bool} {es : List DEntry} {m : Option Found}
    (hes : ∀ e ∈ es, e ∈ t.dyn) (hm : ∀ f ∈ m, f.Ok t name value canBlock) :
    ∀ f ∈ dynLoop t.acked canBlock name value es m, f.Ok t name value canBlock := by
  induction es generalizing m with
  | nil => exact hm
  | cons e es ih =>
    have he := at_mem ht (hes e (List.mem_cons_self ..))
    have hes' := fun x hx => hes x (List.mem_cons_of_mem _ hx)
    unfold dynLoop
    split
    · exact ih hes' hm
    · rename_i hb
      have hb' : canBlock = false → ∀ a ∈ t.acked, e.base < a := by
        intro hc a ha
        by_contra hn
        apply hb
        rw [hc]
        have ha : t.acked = some a := ha
        rw [ha]
        simp; omega
      split
      · rename_i hn
        split
        · rename_i hv
          intro f hf
          cases hf
          exact ⟨e, he, hn, fun _ => hv, hb'⟩
        · refine ih hes' ?_
          intro f hf
          cases m with
          | none =>
            cases hf
            exact ⟨e, he, hn, (fun h => by cases h), hb'⟩
          | some x => exact hm f hf
      · exact ih hes' hm

theorem lookup_ok {t : Table} (ht : t.WF) {name value : Bytes} {canBlock : Bool} :
    ∀ f ∈ t.lookup name value canBlock, f.Ok t name value canBlock := by
  unfold Table.lookup
  simp only
  split
  · exact staticLookup_ok
  · exact dynLoop_ok ht (fun e h => by simpa using h) staticLookup_ok

/-- Nothing is found only if there is no field with the name that may be used. -/
theorem staticLoop_none {name value : Bytes} {es : List SEntry} {m : Option Found} (h : staticLoop name value es m = none) :
    m = none ∧ ∀ e ∈ es, e.name ≠ name := by
  induction es generalizing m with
  | nil => exact ⟨h, by simp⟩
  | cons e es ih =>
    unfold staticLoop at h
    split at h
    · split at h
      · cases h
      · have := (ih h).1
        cases m <;> cases this
    · rename_i hn
      obtain ⟨h1, h2⟩ := ih h
      exact ⟨h1, fun x hx => by rcases List.mem_cons.mp hx with rfl | hx; exacts [hn, h2 x hx]⟩

theorem dynLoop_none {acked : Option Nat} {name value : Bytes} {canBlock : Bool} {es : List DEntry} {m : Option Found}
    (h : dynLoop acked canBlock name value es m = none) :
    m = none ∧ ∀ e ∈ es, (canBlock = true ∨ ∀ a ∈ acked, e.base < a) → e.name ≠ name := by
  induction es generalizing m with
  | nil => exact ⟨h, by simp⟩
  | cons e es ih =>
    unfold dynLoop at h
    split at h
    · rename_i hb
      obtain ⟨h1, h2⟩ := ih h
      refine ⟨h1, fun x hx => ?_⟩
      rcases List.mem_cons.mp hx with rfl | hx
      · rintro (hc | hc)
        · rw [hc] at hb; cases hb
        · exfalso
          cases ha : acked with
          | none => rw [ha] at hb; simp at hb
          | some a =>
            have := hc a ha
            rw [ha] at hb
            simp at hb; omega
      · exact h2 x hx
    · split at h
      · split at h
        · cases h
        · have := (ih h).1
          cases m <;> cases this
      · rename_i hn
        obtain ⟨h1, h2⟩ := ih h
        exact ⟨h1, fun x hx => by rcases List.mem_cons.mp hx with rfl | hx; exacts [fun _ => hn, h2 x hx]⟩

theorem staticLoop_match {name value : Bytes} {es : List SEntry} {m : Option Found} {e : SEntry} (he : e ∈ es)
    (hn : e.name = name) (hv : e.value = value) : (staticLoop name value es m).any Found.valueMatches = true := by
  induction es generalizing m with
  | nil => cases he
  | cons x xs ih =>
    unfold staticLoop
    rcases List.mem_cons.mp he with rfl | h
    · rw [if_pos hn, if_pos hv]; rfl
    · split
      · split
        · rfl
        · exact ih h
      · exact ih h

theorem dynLoop_match {acked : Option Nat} {name value : Bytes} {canBlock : Bool} {es : List DEntry} {m : Option Found} {e : DEntry}
    (he : e ∈ es) (hn : e.name = name) (hv : e.value = value) (hc : canBlock = true ∨ ∀ a ∈ acked, e.base < a) :
    (dynLoop acked canBlock name value es m).any Found.valueMatches = true := by
  induction es generalizing m with
  | nil => cases he
  | cons x xs ih =>
    unfold dynLoop
    rcases List.mem_cons.mp he with rfl | h
    · have : ¬ ((!canBlock && acked.any (fun a => decide (a ≤ e.base))) = true) := by
        rcases hc with hc | hc
        · simp [hc]
        · cases acked with
          | none => simp
          | some a => have := hc a rfl; simp; intro _; omega
      rw [if_neg this, if_pos hn, if_pos hv]; rfl
    · split
      · exact ih h
      · split
        · split
          · rfl
          · exact ih h
        · exact ih h

end Neqo.Qp
