import Verif.Qpack.TableHist

/-!
# The dynamic table: C40

A history is any list of operations on a new table, of an encoder or of a decoder; `runT` also keeps the list of
all fields that were inserted.
-/
namespace Neqo.Qp
open Neqo.Codec

/-- The fields of the table, with 32 bytes for each, are never more than the capacity. -/
theorem C40_capacity {enc : Bool} {ops : List TOp} {t : Table} {l : List (Bytes × Bytes)}
    (h : runT (Table.new enc, []) ops = .ok (t, l)) :
    (t.dyn.map (fun e => e.name.length + e.value.length + 32)).sum ≤ t.capacity := by
  have hw : t.WF := (run_logged (logged_new enc) h).1.wf
  have h1 := hw.fits
  rw [hw.used] at h1
  exact h1

/-- Ten bytes and 32, twice, in a table of 100 bytes: the second insert evicts the first entry. -/
example : (runT (Table.new false, []) [.setCapacity 60, .insert (List.replicate 5 1) (List.replicate 5 2),
      .insert (List.replicate 5 3) (List.replicate 5 4), .duplicate 0, .insertWithNameRef true 1 [7]]).toOption.map
    (fun s => (s.1.dyn.map (fun e => (e.base, e.name, e.value)), s.1.base, s.1.used)) =
    some ([(3, [58, 112, 97, 116, 104], [7])], 4, 38) := by decide +kernel

/-- The index of an entry is the number of inserts before its own, the entry has what was inserted then, and the
table has all entries from one index on. -/
theorem C40_index {enc : Bool} {ops : List TOp} {t : Table} {l : List (Bytes × Bytes)}
    (h : runT (Table.new enc, []) ops = .ok (t, l)) :
    l.length = t.base ∧ (∀ e ∈ t.dyn, l[e.base]? = some (e.name, e.value)) ∧
    ∀ i, (∃ e ∈ t.dyn, e.base = i) ↔ t.base - t.dyn.length ≤ i ∧ i < t.base := by
  have hs := (run_logged (logged_new enc) h).1
  refine ⟨hs.len, fun e he => hs.log e.base e (at_mem hs.wf he), fun i => ?_⟩
  rw [show t.base - t.dyn.length = t.dropped from rfl, ← at_range hs.wf]
  constructor
  · rintro ⟨e, he, rfl⟩; rw [at_mem hs.wf he]; rfl
  · intro hi
    obtain ⟨e, he⟩ := Option.isSome_iff_exists.mp hi
    exact ⟨e, at_some he⟩

/-- An index is never used for another field. -/
theorem C40_never_reused {enc : Bool} {ops ops' : List TOp} {t t' : Table} {l l' : List (Bytes × Bytes)}
    (h : runT (Table.new enc, []) ops = .ok (t, l)) (h' : runT (t, l) ops' = .ok (t', l'))
    {e e' : DEntry} (he : e ∈ t.dyn) (he' : e' ∈ t'.dyn) (hb : e.base = e'.base) : e.name = e'.name ∧ e.value = e'.value := by
  have hs := (run_logged (logged_new enc) h).1
  obtain ⟨hs', m, hm⟩ := run_logged hs h'
  have h1 := hs.log _ _ (at_mem hs.wf he)
  have h2 := hs'.log _ _ (at_mem hs'.wf he')
  simp only at h1 h2 hm
  rw [hm, ← hb, List.getElem?_append_left (List.getElem?_eq_some_iff.mp h1).1, h1] at h2
  exact ⟨(Prod.mk.inj (Option.some.inj h2)).1, (Prod.mk.inj (Option.some.inj h2)).2⟩

/-- An encoder never evicts an entry that is referenced, or whose insert was not acknowledged. -/
theorem C40_kept {ops : List TOp} {op : TOp} {t t' : Table} {l l' : List (Bytes × Bytes)}
    (h : runT (Table.new true, []) ops = .ok (t, l)) (h' : op.apply (t, l) = .ok (t', l')) {e : DEntry} (he : e ∈ t.dyn)
    (hr : 0 < e.refs ∨ ∃ a, t.acked = some a ∧ a ≤ e.base) :
    ∃ e' ∈ t'.dyn, e'.base = e.base ∧ e'.name = e.name ∧ e'.value = e.value := by
  have hs := (run_logged (logged_new true) h).1
  obtain ⟨e', h1, h2, h3⟩ := (step_ok hs h').kept e he (by
    unfold DEntry.canReduce
    rcases hr with hr | ⟨a, ha, hr⟩
    · have : decide (e.refs = 0) = false := by simp; omega
      rw [this]; rfl
    · simp only [ha, Option.all_some]
      have : decide (e.base < a) = false := by simp; omega
      rw [this, Bool.and_false])
  obtain ⟨h4, h5⟩ := at_some h1
  exact ⟨e', h4, h5, h2, h3⟩

/-- A reference keeps the first entry; without it the entry goes. -/
example : ((runT (Table.new true, []) [.setCapacity 80, .insert [1] [2], .insert [3] [4], .incrementAcked 2, .addRef 0,
      .insert [5] [6], .setCapacity 40]).toOption.map (fun s => (s.1.dyn.map (fun e => e.base), s.1.capacity)) =
    some ([0, 1], 80)) ∧
    ((runT (Table.new true, []) [.setCapacity 80, .insert [1] [2], .insert [3] [4], .incrementAcked 2, .addRef 0,
      .removeRef 0, .insert [5] [6]]).toOption.map (fun s => (s.1.dyn.map (fun e => e.base), s.1.capacity)) =
    some ([1, 2], 80)) := by decide +kernel

/-- Whether an encoder tries an insert is decided exactly by whether it will succeed.  If it does, the oldest entries
are evicted, and no more than needed. -/
theorem C40_insert {enc : Bool} {ops : List TOp} {t : Table} {l : List (Bytes × Bytes)}
    (h : runT (Table.new enc, []) ops = .ok (t, l)) (n v : Bytes) :
    (t.insertPossible (n.length + v.length + 32) = .ok true ∧ ∃ t' k, t.insert n v = .ok (some t.base, t') ∧
      t'.dyn = t.dyn.drop k ++ [⟨t.base, n, v, 0⟩] ∧ t'.base = t.base + 1 ∧
      ∀ j < k, t.capacity < ((t.dyn.drop j).map (fun e => e.name.length + e.value.length + 32)).sum + (n.length + v.length + 32)) ∨
    (t.insertPossible (n.length + v.length + 32) = .ok false ∧ ∃ t', t.insert n v = .ok (none, t')) := by
  have hw : t.WF := (run_logged (logged_new enc) h).1.wf
  obtain ⟨r, t', k, h1, h2, h3, h4, h5, h6, h7, h8⟩ := insert_ok hw n v
  cases r with
  | none => exact Or.inr ⟨h8, t', h1⟩
  | some i =>
    obtain ⟨rfl, h9, h10⟩ := h7
    refine Or.inl ⟨h8, ?_⟩
    have hsz : (⟨t.base, n, v, 0⟩ : DEntry).size = n.length + v.length + 32 := rfl
    obtain ⟨b, t2, k2, g1, g2, g3, g4, g5, g6, g7⟩ := evict_ok hw (t.capacity - (n.length + v.length + 32))
    have hi := h1
    unfold Table.insert at hi
    simp only [hsz] at hi
    by_cases h0 : n.length + v.length + 32 > t.capacity
    · rw [if_pos h0] at hi; cases hi
    · rw [if_neg h0, g1] at hi
      cases b
      · cases hi
      · cases hi
        refine ⟨_, k2, h1, by simp only [g2.dyn], by simp only [g2.base], ?_⟩
        intro j hj
        have := g7 j hj
        change t.capacity < total (t.dyn.drop j) + _
        omega

/-- A lookup finds the entry that the peer means: the one with the index before the base or, after it, with the
index from the base on. -/
theorem C40_get {enc : Bool} {ops : List TOp} {t : Table} {l : List (Bytes × Bytes)}
    (h : runT (Table.new enc, []) ops = .ok (t, l)) (h64 : t.base < 2 ^ 64) (index base : Nat) (e : DEntry) :
    (t.getDynamic index base true = .ok e ↔ e ∈ t.dyn ∧ e.base = base + index) ∧
    (t.getDynamic index base false = .ok e ↔ e ∈ t.dyn ∧ e.base + index + 1 = base ∧ t.base + index < 2 ^ 64) := by
  have hw : t.WF := (run_logged (logged_new enc) h).1.wf
  rw [getDynamic_ok hw h64, getDynamic_ok hw h64]
  simp only [true_or, true_and, if_true, Bool.false_eq_true, false_or, if_false]
  constructor
  · constructor
    · rintro ⟨i, rfl, h2⟩; exact at_some h2
    · rintro ⟨h1, h2⟩; exact ⟨_, rfl, by rw [← h2]; exact at_mem hw h1⟩
  · constructor
    · rintro ⟨h0, i, h1, h2⟩
      obtain ⟨h3, h4⟩ := at_some h2
      exact ⟨h3, by omega, h0⟩
    · rintro ⟨h1, h2, h3⟩; exact ⟨h3, e.base, h2, at_mem hw h1⟩

/-- Three entries, a base between them. -/
example : ∃ t l, runT (Table.new false, []) [.setCapacity 200, .insert [1] [2], .insert [3] [4], .insert [5] [6]] = .ok (t, l) ∧
    t.getDynamic 0 2 false = .ok ⟨1, [3], [4], 0⟩ ∧ t.getDynamic 1 2 false = .ok ⟨0, [1], [2], 0⟩ ∧
    t.getDynamic 0 2 true = .ok ⟨2, [5], [6], 0⟩ ∧ t.getDynamic 1 2 true = .error .headerLookup ∧
    t.getDynamic 2 2 false = .error .headerLookup := by
  exact ⟨_, _, rfl, by decide +kernel⟩

/-- What is found has the name, and the value if it says so; and, if the peer must not be made to wait, it is a field
of the static table or one that the peer has. -/
theorem C40_lookup {ops : List TOp} {t : Table} {l : List (Bytes × Bytes)}
    (h : runT (Table.new true, []) ops = .ok (t, l)) {n v : Bytes} {canBlock : Bool} {f : Found}
    (hf : t.lookup n v canBlock = some f) :
    (f.isStatic = true ∧ ∃ e, staticTable[f.index]? = some e ∧ e.name = n ∧ (f.valueMatches = true → e.value = v)) ∨
    (f.isStatic = false ∧ ∃ e ∈ t.dyn, e.base = f.index ∧ e.name = n ∧ (f.valueMatches = true → e.value = v) ∧
      (canBlock = false → ∃ a, t.acked = some a ∧ f.index < a)) := by
  have hw : t.WF := (run_logged (logged_new true) h).1.wf
  have hok := lookup_ok hw f hf
  unfold Found.Ok at hok
  cases hst : f.isStatic
  · rw [hst] at hok
    obtain ⟨e, h1, h2, h3, h4⟩ := hok
    obtain ⟨h5, h6⟩ := at_some h1
    refine Or.inr ⟨rfl, e, h5, h6, h2, h3, fun hc => ?_⟩
    have hacked : ∀ {s s' : Table × List (Bytes × Bytes)} {ops : List TOp}, runT s ops = .ok s' → Logged s → s.1.acked.isSome →
        s'.1.acked.isSome := by
      intro s s' ops
      induction ops generalizing s with
      | nil => intro h _ hs; cases h; exact hs
      | cons op ops ih =>
        intro h hl hs
        simp only [runT] at h
        cases ha : op.apply s with
        | error e => rw [ha] at h; cases h
        | ok s1 =>
          rw [ha] at h
          have hst := step_ok hl ha
          obtain ⟨a, ha⟩ := Option.isSome_iff_exists.mp hs
          obtain ⟨b, hb, -⟩ := hst.acked a ha
          exact ih h hst.logged (by rw [show s1.1.acked = some b from hb]; rfl)
    obtain ⟨a, ha⟩ := Option.isSome_iff_exists.mp (hacked h (logged_new true) rfl)
    exact ⟨a, ha, h4 hc a ha⟩
  · rw [hst] at hok
    exact Or.inl ⟨rfl, hok⟩

/-- If a field with the name and the value may be used, one is found. -/
theorem C40_lookup_complete {t : Table} {n v : Bytes} {canBlock : Bool} {e : DEntry} (he : e ∈ t.dyn) (hn : e.name = n)
    (hv : e.value = v) (hc : canBlock = true ∨ ∀ a ∈ t.acked, e.base < a) :
    ∃ f, t.lookup n v canBlock = some f ∧ f.valueMatches = true := by
  have h : (t.lookup n v canBlock).any Found.valueMatches = true := by
    unfold Table.lookup
    simp only
    split
    · assumption
    · exact dynLoop_match (by simpa using he) hn hv hc
  cases hl : t.lookup n v canBlock with
  | none => rw [hl] at h; cases h
  | some f => rw [hl] at h; exact ⟨f, rfl, h⟩

/-- A field of the static table, one of the dynamic table that may block, and one that may not be used. -/
example : ∃ t l, runT (Table.new true, []) [.setCapacity 200, .insert [1] [2], .insert [3] [4], .incrementAcked 1] = .ok (t, l) ∧
    t.lookup (":method".toUTF8.toList) ("GET".toUTF8.toList) false = some ⟨17, true, true⟩ ∧
    t.lookup [3] [4] true = some ⟨1, false, true⟩ ∧ t.lookup [3] [4] false = none ∧ t.lookup [1] [9] false = some ⟨0, false, false⟩ := by
  exact ⟨_, _, rfl, by decide +kernel⟩

/-- Nothing panics, except giving a reference to an entry that the table does not have, or giving one back that was
not taken. -/
theorem C40_no_panic {enc : Bool} {ops : List TOp} {op : TOp} {t : Table} {l : List (Bytes × Bytes)} {e : Err}
    (h : runT (Table.new enc, []) ops = .ok (t, l)) (h' : op.apply (t, l) = .error e) :
    (∃ i, op = .addRef i ∧ ∀ d ∈ t.dyn, d.base ≠ i) ∨ ∃ i, op = .removeRef i ∧ ∀ d ∈ t.dyn, d.base = i → d.refs = 0 := by
  have hw : t.WF := (run_logged (logged_new enc) h).1.wf
  have hin : ∀ n v, ∃ r t', t.insert n v = .ok (r, t') := fun n v => by
    obtain ⟨r, t', k, h1, -⟩ := insert_ok hw n v
    exact ⟨r, t', h1⟩
  have hgp : ∀ i, t.getDynamic i t.base false ≠ .error .panic := by
    intro i
    simp only [Table.getDynamic, Bool.false_eq_true, if_false, Table.getRel]
    repeat' split
    all_goals simp
  cases op with
  | setCapacity c =>
    obtain ⟨b, t', k, h1, -⟩ := setCapacity_ok hw c
    simp only [TOp.apply, h1, Except.map] at h'
    cases h'
  | insert n v =>
    obtain ⟨r, t', h1⟩ := hin n v
    simp only [TOp.apply, h1] at h'
    cases r <;> cases h'
  | insertWithNameRef st i v =>
    cases st
    · cases hd : t.getDynamic i t.base false with
      | error x =>
        simp only [TOp.apply, Table.insertWithNameRef, hd, Bool.false_eq_true, if_false] at h'
        cases x <;> first | exact absurd hd (hgp i) | cases h'
      | ok d =>
        obtain ⟨r, t', h1⟩ := hin d.name v
        simp only [TOp.apply, Table.insertWithNameRef, hd, Bool.false_eq_true, if_false, h1] at h'
        cases r <;> cases h'
    · cases hd : staticTable[i]? with
      | none =>
        simp only [TOp.apply, Table.insertWithNameRef, getStatic, hd, if_true] at h'
        cases h'
      | some d =>
        obtain ⟨r, t', h1⟩ := hin d.name v
        simp only [TOp.apply, Table.insertWithNameRef, getStatic, hd, if_true, h1] at h'
        cases r <;> cases h'
  | duplicate i =>
    cases hd : t.getDynamic i t.base false with
    | error x =>
      simp only [TOp.apply, Table.duplicate, hd] at h'
      cases x <;> first | exact absurd hd (hgp i) | cases h'
    | ok d =>
      obtain ⟨r, t', h1⟩ := hin d.name d.value
      simp only [TOp.apply, Table.duplicate, hd, h1] at h'
      cases r <;> cases h'
  | addRef i =>
    refine Or.inl ⟨i, rfl, ?_⟩
    rintro d hd rfl
    obtain ⟨t', h1, -⟩ := addRef_ok hw (at_mem hw hd)
    simp only [TOp.apply, h1] at h'
    cases h'
  | removeRef i =>
    refine Or.inr ⟨i, rfl, ?_⟩
    rintro d hd rfl
    by_contra hr
    obtain ⟨t', h1, -⟩ := removeRef_ok hw (at_mem hw hd) (by omega)
    simp only [TOp.apply, h1] at h'
    cases h'
  | incrementAcked n =>
    simp only [TOp.apply, Table.incrementAcked] at h'
    cases ha : t.acked with
    | none => rw [ha] at h'; cases h'
    | some a =>
      rw [ha] at h'
      simp only at h'
      split at h'
      · cases h'
      · rename_i hx
        split at hx <;> cases hx
      · cases h'

/-- Both panics. -/
example : TOp.apply (Table.new true, []) (.addRef 0) = .error .panic ∧
    runT (Table.new true, []) [.setCapacity 100, .insert [1] [2], .removeRef 0] = .error .panic := by decide +kernel

end Neqo.Qp
