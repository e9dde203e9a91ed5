import Verif.Qpack.Lookup

/-!
# Histories of a dynamic table
-/
namespace Neqo.Qp
open Neqo.Codec

/-- What can be done to a table. -/
inductive TOp where
  | setCapacity (cap : Nat)
  | insert (name value : Bytes)
  | insertWithNameRef (isStatic : Bool) (i : Nat) (value : Bytes)
  | duplicate (i : Nat)
  | addRef (i : Nat)
  | removeRef (i : Nat)
  | incrementAcked (n : Nat)
deriving DecidableEq, Repr

/-- The entry that an operation asks to insert. -/
def TOp.field (t : Table) : TOp → Option (Bytes × Bytes)
  | .insert n v => some (n, v)
  | .insertWithNameRef true i v => staticTable[i]?.map fun e => (e.name, v)
  | .insertWithNameRef false i v => if i < t.base then (t.at (t.base - 1 - i)).map fun e => (e.name, v) else none
  | .duplicate i => if i < t.base then (t.at (t.base - 1 - i)).map fun e => (e.name, e.value) else none
  | _ => none

/-- A table with a list of all that was inserted.  An operation that is refused (with an error that is not a panic)
leaves what it has done; the history goes on. -/
def TOp.apply (s : Table × List (Bytes × Bytes)) (op : TOp) : Except Err (Table × List (Bytes × Bytes)) :=
  let ins (r : Except Err (Option Nat × Table)) : Except Err (Table × List (Bytes × Bytes)) :=
    match r with
    | .ok (some _, t) => .ok (t, s.2 ++ (op.field s.1).toList)
    | .ok (none, t) => .ok (t, s.2)
    | .error .panic => .error .panic
    | .error _ => .ok s
  let plain (r : Except Err Table) : Except Err (Table × List (Bytes × Bytes)) :=
    match r with
    | .ok t => .ok (t, s.2)
    | .error .panic => .error .panic
    | .error _ => .ok s
  match op with
  | .setCapacity c => plain ((s.1.setCapacity c).map Prod.snd)
  | .insert n v => ins (s.1.insert n v)
  | .insertWithNameRef st i v => ins (s.1.insertWithNameRef st i v)
  | .duplicate i => ins (s.1.duplicate i)
  | .addRef i => plain (s.1.addRef i)
  | .removeRef i => plain (s.1.removeRef i)
  | .incrementAcked n => plain (s.1.incrementAcked n)

/-- A history. -/
def runT (s : Table × List (Bytes × Bytes)) : List TOp → Except Err (Table × List (Bytes × Bytes))
  | [] => .ok s
  | op :: ops =>
    match op.apply s with
    | .ok s => runT s ops
    | .error e => .error e

/-- The table, with the list of all inserts. -/
structure Logged (s : Table × List (Bytes × Bytes)) : Prop where
  wf : s.1.WF
  len : s.2.length = s.1.base
  log : ∀ i e, s.1.at i = some e → s.2[i]? = some (e.name, e.value)

/-- What one step does: the oldest entries are evicted, if they may be, and one may be added. -/
structure Step (s s' : Table × List (Bytes × Bytes)) : Prop where
  logged : Logged s'
  log_le : ∃ l, s'.2 = s.2 ++ l
  kept : ∀ e ∈ s.1.dyn, e.canReduce s.1.acked = false → ∃ e', s'.1.at e.base = some e' ∧ e'.name = e.name ∧ e'.value = e.value
  acked : ∀ a ∈ s.1.acked, ∃ b ∈ s'.1.acked, a ≤ b

theorem field_at {t : Table} (ht : t.WF) {i : Nat} {d : DEntry}
    (h : t.getDynamic i t.base false = .ok d) : i < t.base ∧ t.at (t.base - 1 - i) = some d := by
  obtain ⟨j, h1, h2⟩ := getDynamic_inv ht h
  simp only [Bool.false_eq_true, if_false] at h1
  exact ⟨by omega, by rw [show t.base - 1 - i = j by omega]; exact h2⟩

theorem step_insert {t : Table} {l : List (Bytes × Bytes)} (hs : Logged (t, l)) {n v : Bytes} {r : Option Nat} {t' : Table}
    (h : t.insert n v = .ok (r, t')) : Step (t, l) (t', if r.isSome then l ++ [(n, v)] else l) := by
  obtain ⟨hw, hlen, hlog⟩ := hs
  simp only at hw hlen hlog
  obtain ⟨r', t'', k, h1, h2, h3, h4, h5, h6, h7, -⟩ := insert_ok hw n v
  rw [h] at h1
  obtain ⟨rfl, rfl⟩ := Prod.mk.inj (Except.ok.inj h1)
  have hl := hw.len
  have hl2 := h2.len
  have hkept : ∀ e ∈ t.dyn, e.canReduce t.acked = false → e ∈ t.dyn.drop k := by
    intro e he hc
    rw [← List.take_append_drop k t.dyn] at he
    rcases List.mem_append.mp he with he | he
    · rw [h6 e he] at hc; cases hc
    · exact he
  cases r with
  | none =>
    obtain ⟨h8, h9⟩ := h7
    have hold : ∀ i e, t'.at i = some e → t.at i = some e := by
      intro i e he
      obtain ⟨g1, g2⟩ := at_some he
      rw [h8] at g1
      rw [← g2]
      exact at_mem hw (List.mem_of_mem_drop g1)
    refine ⟨⟨h2, by simp only [Option.isSome, Bool.false_eq_true, if_false]; rw [hlen, h9], fun i e he => hlog i e (hold i e he)⟩,
      ⟨[], by simp⟩, fun e he hc => ⟨e, at_mem h2 (by rw [h8]; exact hkept e he hc), rfl, rfl⟩, fun a ha => ⟨a, by rw [h4]; exact ha, le_rfl⟩⟩
  | some i =>
    obtain ⟨rfl, h8, h9⟩ := h7
    refine ⟨⟨h2, ?_, ?_⟩, ⟨[(n, v)], rfl⟩,
      fun e he hc => ⟨e, at_mem h2 (by rw [h8]; exact List.mem_append_left _ (hkept e he hc)), rfl, rfl⟩, fun a ha => ⟨a, by rw [h4]; exact ha, le_rfl⟩⟩
    · simp only [Option.isSome, if_true, List.length_append, List.length_singleton]
      rw [hlen, h9]
    · intro i e he
      simp only [Option.isSome, if_true]
      obtain ⟨g1, g2⟩ := at_some he
      simp only [h8] at g1
      rcases List.mem_append.mp g1 with g1 | g1
      · have g3 := at_mem hw (List.mem_of_mem_drop g1)
        have g4 := at_of_index hw g3
        rw [g2] at g3 g4
        rw [List.getElem?_append_left (by omega)]
        exact hlog i e g3
      · obtain rfl := List.mem_singleton.mp g1
        simp only at g2
        rw [← g2, ← hlen, List.getElem?_concat_length]

theorem Logged.refl {s : Table × List (Bytes × Bytes)} (hs : Logged s) : Step s s :=
  ⟨hs, ⟨[], by simp⟩, fun e he _ => ⟨e, at_mem hs.wf he, rfl, rfl⟩, fun a ha => ⟨a, ha, le_rfl⟩⟩

/-- A change of the references of an entry. -/
theorem step_refs {t t' : Table} {l : List (Bytes × Bytes)} (hs : Logged (t, l)) {i n : Nat} {e : DEntry} (he : t.at i = some e)
    (hw : t'.WF) (hb : t'.base = t.base) (ha : t'.acked = t.acked)
    (hat : ∀ j, t'.at j = if j = i then some { e with refs := n } else t.at j) : Step (t, l) (t', l) := by
  refine ⟨⟨hw, by rw [hs.len, hb], ?_⟩, ⟨[], by simp⟩, ?_, fun a h => ⟨a, by rw [ha]; exact h, le_rfl⟩⟩
  · intro j x hx
    simp only at hx
    rw [hat j] at hx
    split at hx
    · rename_i hj
      subst hj
      cases hx
      exact hs.log j e he
    · exact hs.log j x hx
  · intro x hx _
    have := at_mem hs.wf hx
    simp only
    rw [hat x.base]
    split
    · rename_i hj
      rw [hj, he] at this
      cases this
      exact ⟨_, rfl, rfl, rfl⟩
    · exact ⟨x, this, rfl, rfl⟩

theorem addRef_inv {t t' : Table} {i : Nat} (h : t.addRef i = .ok t') (ht : t.WF) : ∃ e, t.at i = some e := by
  cases he : t.at i with
  | some e => exact ⟨e, rfl⟩
  | none =>
    exfalso
    unfold Table.addRef at h
    cases hp : t.placeAbs i with
    | error e => rw [hp] at h; cases h
    | ok p =>
      unfold Table.placeAbs Table.place at hp
      split at hp
      · cases hp
      · rename_i hb
        by_cases hl : t.base - i - 1 < t.dyn.length
        · have := ht.len
          have : (t.at i).isSome := (at_range ht).mpr ⟨by unfold Table.dropped; omega, by omega⟩
          rw [he] at this; cases this
        · rw [if_neg hl] at hp; cases hp

theorem removeRef_inv {t t' : Table} {i : Nat} (h : t.removeRef i = .ok t') (ht : t.WF) : ∃ e, t.at i = some e ∧ 0 < e.refs := by
  unfold Table.removeRef at h
  cases hp : t.placeAbs i with
  | error e => rw [hp] at h; cases h
  | ok p =>
    rw [hp] at h
    simp only at h
    cases he : t.at i with
    | some e =>
      obtain ⟨q, h1, h2, -⟩ := placeAbs_ok ht he
      rw [hp] at h1
      cases h1
      rw [h2] at h
      simp only at h
      split at h
      · cases h
      · exact ⟨e, rfl, by omega⟩
    | none =>
      exfalso
      unfold Table.placeAbs Table.place at hp
      split at hp
      · cases hp
      · rename_i hb
        by_cases hl : t.base - i - 1 < t.dyn.length
        · have := ht.len
          have : (t.at i).isSome := (at_range ht).mpr ⟨by unfold Table.dropped; omega, by omega⟩
          rw [he] at this; cases this
        · rw [if_neg hl] at hp; cases hp

theorem step_ok {s s' : Table × List (Bytes × Bytes)} (hs : Logged s) {op : TOp} (h : op.apply s = .ok s') :
    Step s s' := by
  obtain ⟨t, l⟩ := s
  have hw : t.WF := hs.wf
  have hins : ∀ {n v : Bytes} {r : Except Err (Option Nat × Table)}, op.field t = some (n, v) → r = t.insert n v →
      (match r with
        | .ok (some _, t') => .ok (t', l ++ (op.field t).toList)
        | .ok (none, t) => .ok (t, l)
        | .error .panic => .error .panic
        | .error _ => .ok (t, l) : Except Err (Table × List (Bytes × Bytes))) = .ok s' → Step (t, l) s' := by
    intro n v r hf hr hm
    obtain ⟨r', t', k, h1, -⟩ := insert_ok hw n v
    have hst := step_insert hs h1
    rw [hr, h1] at hm
    cases r' with
    | none => cases hm; exact hst
    | some i =>
      simp only [hf] at hm
      cases hm; exact hst
  cases op with
  | setCapacity c =>
    obtain ⟨b, t', k, h1, h2, h3, h4, -⟩ := setCapacity_ok hw c
    simp only [TOp.apply, h1, Except.map] at h
    cases h
    refine ⟨⟨h3, by simp only; rw [h2.base]; exact hs.len, ?_⟩, ⟨[], by simp⟩, ?_, fun a ha => ⟨a, by simp only; rw [h2.acked]; exact ha, le_rfl⟩⟩
    · intro i e he
      simp only at he
      rw [h2.at hw h3] at he
      split at he
      · exact hs.log i e he
      · cases he
    · intro e he hc
      refine ⟨e, at_mem h3 ?_, rfl, rfl⟩
      rw [h2.dyn]
      simp only at he
      rw [← List.take_append_drop k t.dyn] at he
      rcases List.mem_append.mp he with he | he
      · have := h2.free e he
        simp only at hc
        rw [this] at hc; cases hc
      · exact he
  | insert n v => exact hins (n := n) (v := v) rfl rfl h
  | insertWithNameRef st i v =>
    cases st
    · cases hd : t.getDynamic i t.base false with
      | error e =>
        simp only [TOp.apply, Table.insertWithNameRef, hd, Bool.false_eq_true, if_false] at h
        cases e <;> first | (cases h; exact hs.refl) | cases h
      | ok d =>
        obtain ⟨h1, h2⟩ := field_at hw hd
        refine hins (n := d.name) (v := v) ?_ rfl (by
          have : t.insertWithNameRef false i v = t.insert d.name v := by simp [Table.insertWithNameRef, hd]
          rw [← this]; exact h)
        simp only [TOp.field]; rw [if_pos h1, h2]; rfl
    · cases hd : staticTable[i]? with
      | none =>
        simp only [TOp.apply, Table.insertWithNameRef, getStatic, hd, if_true] at h
        cases h; exact hs.refl
      | some d =>
        refine hins (n := d.name) (v := v) ?_ rfl (by
          have : t.insertWithNameRef true i v = t.insert d.name v := by simp [Table.insertWithNameRef, getStatic, hd]
          rw [← this]; exact h)
        simp only [TOp.field]; rw [hd]; rfl
  | duplicate i =>
    cases hd : t.getDynamic i t.base false with
    | error e =>
      simp only [TOp.apply, Table.duplicate, hd] at h
      cases e <;> first | (cases h; exact hs.refl) | cases h
    | ok d =>
      obtain ⟨h1, h2⟩ := field_at hw hd
      refine hins (n := d.name) (v := d.value) ?_ rfl (by
        have : t.duplicate i = t.insert d.name d.value := by simp [Table.duplicate, hd]
        rw [← this]; exact h)
      simp only [TOp.field]; rw [if_pos h1, h2]; rfl
  | addRef i =>
    simp only [TOp.apply] at h
    cases hr : t.addRef i with
    | error e => rw [hr] at h; cases e <;> first | (cases h; exact hs.refl) | cases h
    | ok t' =>
      rw [hr] at h
      obtain ⟨e, he⟩ := addRef_inv hr hw
      obtain ⟨t'', h1, h2, h3, h4, h5, h6, h7⟩ := addRef_ok hw he
      rw [hr] at h1
      cases h1
      cases h
      exact step_refs hs he h2 h3 h5 h7
  | removeRef i =>
    simp only [TOp.apply] at h
    cases hr : t.removeRef i with
    | error e => rw [hr] at h; cases e <;> first | (cases h; exact hs.refl) | cases h
    | ok t' =>
      rw [hr] at h
      obtain ⟨e, he, hp⟩ := removeRef_inv hr hw
      obtain ⟨t'', h1, h2, h3, h4, h5, h6, h7⟩ := removeRef_ok hw he hp
      rw [hr] at h1
      cases h1
      cases h
      exact step_refs hs he h2 h3 h5 h7
  | incrementAcked n =>
    simp only [TOp.apply, Table.incrementAcked] at h
    cases ha : t.acked with
    | none => rw [ha] at h; cases h; exact hs.refl
    | some a =>
      rw [ha] at h
      simp only at h
      split at h
      · rename_i hx
        split at hx
        · cases hx
        · rename_i hc
          cases hx
          cases h
          refine ⟨⟨⟨hw.len, hw.index, hw.used, hw.fits, ?_⟩, hs.len, hs.log⟩, ⟨[], by simp⟩,
            fun e he _ => ⟨e, at_mem hw he, rfl, rfl⟩, ?_⟩
          · intro b hb
            cases hb
            simp only; omega
          · intro b hb
            simp only [ha] at hb
            cases hb
            exact ⟨_, rfl, by omega⟩
      · rename_i hx
        split at hx <;> cases hx
      · cases h; exact hs.refl

theorem logged_new (b : Bool) : Logged (Table.new b, []) :=
  ⟨⟨by simp [Table.new], by simp [Table.new], rfl, by simp [Table.new], by
      intro a ha
      cases b
      · cases ha
      · cases ha; simp [Table.new]⟩, rfl, by
    intro i e h
    simp [Table.new, Table.at] at h⟩

theorem run_logged {s s' : Table × List (Bytes × Bytes)} (hs : Logged s) {ops : List TOp} (h : runT s ops = .ok s') : Logged s' ∧ ∃ l, s'.2 = s.2 ++ l := by
  induction ops generalizing s with
  | nil => cases h; exact ⟨hs, [], by simp⟩
  | cons op ops ih =>
    simp only [runT] at h
    cases ha : op.apply s with
    | error e => rw [ha] at h; cases h
    | ok s1 =>
      rw [ha] at h
      have hst := step_ok hs ha
      obtain ⟨h1, l, h2⟩ := ih hst.logged h
      obtain ⟨l', h3⟩ := hst.log_le
      exact ⟨h1, l' ++ l, by rw [h2, h3, List.append_assoc]⟩

end Neqo.Qp
