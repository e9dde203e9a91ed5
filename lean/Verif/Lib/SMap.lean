import Verif.Lib.Basic
/-!
# Ordered maps with `Nat` keys as sorted association lists

Stand-in for Rust's `BTreeMap<u64, V>` / `BTreeMap<usize, V>`.  Each operation is
given by its effect on a list sorted by strictly increasing key; `Sorted` is
preserved by all of them.
-/
namespace Neqo

abbrev SMap (β : Type) := List (Nat × β)

namespace SMap
variable {β : Type}

/-- Strictly increasing keys: the representation invariant of a `BTreeMap`. -/
def Sorted (m : SMap β) : Prop := m.Pairwise (fun a b => a.1 < b.1)

/-- `range(..k)` -/
def below (m : SMap β) (k : Nat) : SMap β := m.filter (fun e => decide (e.1 < k))
/-- `range(..=k)` -/
def upto (m : SMap β) (k : Nat) : SMap β := m.filter (fun e => decide (e.1 ≤ k))
/-- `range(k..)` -/
def atOrAfter (m : SMap β) (k : Nat) : SMap β := m.filter (fun e => decide (k ≤ e.1))
/-- entries with key strictly above `k` -/
def above (m : SMap β) (k : Nat) : SMap β := m.filter (fun e => decide (k < e.1))
/-- `insert(k, v)` (replaces an existing value) -/
def insert (m : SMap β) (k : Nat) (v : β) : SMap β := below m k ++ (k, v) :: above m k
/-- `remove(&k)` -/
def erase (m : SMap β) (k : Nat) : SMap β := m.filter (fun e => decide (e.1 ≠ k))
/-- `get(&k)` -/
def find (m : SMap β) (k : Nat) : Option β := (m.find? (fun e => e.1 == k)).map (·.2)
/-- `if let Some(v) = get_mut(&k) { *v = f(v) }` -/
def modify (m : SMap β) (k : Nat) (f : β → β) : SMap β :=
  m.map (fun e => if e.1 = k then (e.1, f e.2) else e)

theorem sorted_nil : Sorted ([] : SMap β) := List.Pairwise.nil

theorem Sorted.filter {m : SMap β} (h : Sorted m) (p : Nat × β → Bool) : Sorted (m.filter p) :=
  List.Pairwise.filter p h

theorem mem_below {m : SMap β} {k : Nat} {e : Nat × β} : e ∈ below m k ↔ e ∈ m ∧ e.1 < k := by
  simp [below]
theorem mem_upto {m : SMap β} {k : Nat} {e : Nat × β} : e ∈ upto m k ↔ e ∈ m ∧ e.1 ≤ k := by
  simp [upto]
theorem mem_atOrAfter {m : SMap β} {k : Nat} {e : Nat × β} :
    e ∈ atOrAfter m k ↔ e ∈ m ∧ k ≤ e.1 := by
  simp [atOrAfter]
theorem mem_above {m : SMap β} {k : Nat} {e : Nat × β} : e ∈ above m k ↔ e ∈ m ∧ k < e.1 := by
  simp [above]
theorem mem_erase {m : SMap β} {k : Nat} {e : Nat × β} : e ∈ erase m k ↔ e ∈ m ∧ e.1 ≠ k := by
  simp [erase]
theorem mem_insert {m : SMap β} {k : Nat} {v : β} {e : Nat × β} :
    e ∈ insert m k v ↔ e = (k, v) ∨ (e ∈ m ∧ e.1 ≠ k) := by
  simp only [insert, List.mem_append, List.mem_cons, mem_below, mem_above]
  constructor
  · rintro (⟨h, h'⟩ | h | ⟨h, h'⟩)
    · exact .inr ⟨h, by omega⟩
    · exact .inl h
    · exact .inr ⟨h, by omega⟩
  · rintro (h | ⟨h, h'⟩)
    · exact .inr (.inl h)
    · by_cases hlt : e.1 < k
      · exact .inl ⟨h, hlt⟩
      · exact .inr (.inr ⟨h, by omega⟩)

theorem filter_eq_self_of {m : SMap β} {p : Nat × β → Bool} (h : ∀ e ∈ m, p e = true) :
    m.filter p = m := List.filter_eq_self.mpr h

theorem filter_eq_nil_of {m : SMap β} {p : Nat × β → Bool} (h : ∀ e ∈ m, p e = false) :
    m.filter p = [] := by
  rw [List.filter_eq_nil_iff]; intro e he; simp [h e he]

/-- A sorted map splits into the part at or below a key and the part above. -/
theorem Sorted.split_upto {m : SMap β} (h : Sorted m) (k : Nat) : m = upto m k ++ above m k := by
  induction m with
  | nil => rfl
  | cons e m ih =>
    have h' := List.pairwise_cons.mp h
    by_cases hk : e.1 ≤ k
    · have hk' : ¬ k < e.1 := by omega
      simp only [upto, above, List.filter_cons, hk, hk', decide_true, decide_false, if_true]
      have := ih h'.2
      simp only [upto, above] at this
      simp only [List.cons_append]
      congr 1
    · have hk' : k < e.1 := by omega
      have hall : ∀ x ∈ m, k < x.1 := fun x hx => by have := h'.1 x hx; omega
      have h1 : m.filter (fun e => decide (e.1 ≤ k)) = [] :=
        filter_eq_nil_of (fun x hx => by have := hall x hx; simp; omega)
      have h2 : m.filter (fun e => decide (k < e.1)) = m :=
        filter_eq_self_of (fun x hx => by simpa using hall x hx)
      simp [upto, above, hk, hk', h1, h2]

theorem Sorted.split_below {m : SMap β} (h : Sorted m) (k : Nat) :
    m = below m k ++ atOrAfter m k := by
  cases k with
  | zero =>
    have h1 : below m 0 = [] := filter_eq_nil_of (fun x _ => by simp)
    have h2 : atOrAfter m 0 = m := filter_eq_self_of (fun x _ => by simp)
    rw [h1, h2]; rfl
  | succ k =>
    have := h.split_upto k
    have e1 : below m (k + 1) = upto m k := by simp only [below, upto, Nat.lt_succ_iff]
    have e2 : atOrAfter m (k + 1) = above m k := by simp only [atOrAfter, above, Nat.succ_le_iff]
    rw [e1, e2]; exact this

theorem sorted_append {a b : SMap β} :
    Sorted (a ++ b) ↔ Sorted a ∧ Sorted b ∧ ∀ x ∈ a, ∀ y ∈ b, x.1 < y.1 := List.pairwise_append

theorem sorted_cons {e : Nat × β} {m : SMap β} :
    Sorted (e :: m) ↔ (∀ x ∈ m, e.1 < x.1) ∧ Sorted m := List.pairwise_cons

theorem Sorted.insert {m : SMap β} (h : Sorted m) (k : Nat) (v : β) : Sorted (insert m k v) := by
  unfold SMap.insert
  rw [sorted_append, sorted_cons]
  refine ⟨h.filter _, ⟨?_, h.filter _⟩, ?_⟩
  · intro x hx; exact (mem_above.mp hx).2
  · intro x hx y hy
    have hx' := (mem_below.mp hx).2
    rcases List.mem_cons.mp hy with rfl | hy
    · exact hx'
    · have := (mem_above.mp hy).2; omega

theorem Sorted.erase {m : SMap β} (h : Sorted m) (k : Nat) : Sorted (erase m k) := h.filter _

theorem Sorted.modify {m : SMap β} (h : Sorted m) (k : Nat) (f : β → β) : Sorted (modify m k f) := by
  unfold SMap.modify Sorted
  rw [List.pairwise_map]
  refine List.Pairwise.imp ?_ h
  intro a b hab
  have ha : (if a.1 = k then (a.1, f a.2) else a).1 = a.1 := by split <;> rfl
  have hb : (if b.1 = k then (b.1, f b.2) else b).1 = b.1 := by split <;> rfl
  rw [ha, hb]; exact hab

theorem mem_modify {m : SMap β} {k : Nat} {f : β → β} {e : Nat × β} :
    e ∈ modify m k f ↔ (e ∈ m ∧ e.1 ≠ k) ∨ (∃ v, (k, v) ∈ m ∧ e = (k, f v)) := by
  simp only [modify, List.mem_map]
  constructor
  · rintro ⟨a, ha, rfl⟩
    split
    · rename_i hk; subst hk; exact .inr ⟨a.2, ha, rfl⟩
    · rename_i hk; exact .inl ⟨ha, hk⟩
  · rintro (⟨h, h'⟩ | ⟨v, h, rfl⟩)
    · exact ⟨e, h, by simp [h']⟩
    · exact ⟨(k, v), h, by simp⟩

/-- Keys are unique. -/
theorem Sorted.unique {m : SMap β} (h : Sorted m) {a b : Nat × β} (ha : a ∈ m) (hb : b ∈ m)
    (hk : a.1 = b.1) : a = b := by
  induction m with
  | nil => cases ha
  | cons e m ih =>
    have h' := sorted_cons.mp h
    rcases List.mem_cons.mp ha with ha1 | ha1 <;> rcases List.mem_cons.mp hb with hb1 | hb1
    · rw [ha1, hb1]
    · have := h'.1 b hb1; subst ha1; omega
    · have := h'.1 a ha1; subst hb1; omega
    · exact ih h'.2 ha1 hb1

theorem Sorted.find_eq_some {m : SMap β} (h : Sorted m) {k : Nat} {v : β} :
    find m k = some v ↔ (k, v) ∈ m := by
  unfold find
  constructor
  · intro hf
    cases hfm : m.find? (fun e => e.1 == k) with
    | none => rw [hfm] at hf; cases hf
    | some e =>
      rw [hfm] at hf
      have hm := List.mem_of_find?_eq_some hfm
      have hk := List.find?_some hfm
      simp at hf hk
      subst hf; subst hk
      exact hm
  · intro hm
    cases hfm : m.find? (fun e => e.1 == k) with
    | none => have := List.find?_eq_none.mp hfm (k, v) hm; simp at this
    | some e =>
      have hm' := List.mem_of_find?_eq_some hfm
      have hk := List.find?_some hfm
      simp at hk
      have := h.unique hm' hm hk
      rw [this]; rfl

theorem find_eq_none {m : SMap β} {k : Nat} : find m k = none ↔ ∀ e ∈ m, e.1 ≠ k := by
  unfold find
  rw [Option.map_eq_none_iff, List.find?_eq_none]
  simp

end SMap
end Neqo
