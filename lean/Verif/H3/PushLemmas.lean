import Verif.H3.Push

/-! # Lemmas about the states of pushes -/
namespace Neqo.H3
variable {H : Type}

/-- The state of a push, whether or not it is stored. -/
def Act.view (a : Act H) (id : Nat) : PState H :=
  if id < a.first then .closed else a.states.getD (id - a.first) .init

def closedCount (l : List (PState H)) : Nat := (l.filter PState.isClosed).length

theorem isClosed_iff (s : PState H) : s.isClosed = true ↔ s = .closed := by cases s <;> simp [PState.isClosed]

instance (s : PState H) : Decidable (s = .closed) := decidable_of_iff _ (isClosed_iff s)

theorem closedCount_cons (s : PState H) (l : List (PState H)) :
    closedCount (s :: l) = (if s = .closed then 1 else 0) + closedCount l := by
  unfold closedCount
  cases s <;> simp [PState.isClosed, List.filter_cons]
  omega

theorem closedCount_append (l m : List (PState H)) :
    closedCount (l ++ m) = closedCount l + closedCount m := by
  simp [closedCount, List.filter_append]

theorem closedCount_replicate (n : Nat) : closedCount (List.replicate n (PState.init : PState H)) = 0 := by
  induction n with
  | zero => rfl
  | succ n ih => rw [List.replicate_succ, closedCount_cons, ih]; simp

theorem closedCount_set (l : List (PState H)) (i : Nat) (s t : PState H) (h : l[i]? = some s) :
    closedCount (l.set i t) + (if s = .closed then 1 else 0) =
      closedCount l + (if t = .closed then 1 else 0) := by
  induction l generalizing i with
  | nil => cases h
  | cons a l ih =>
    cases i with
    | zero =>
      simp only [List.getElem?_cons_zero, Option.some.injEq] at h
      subst h
      simp only [List.set_cons_zero, closedCount_cons]; omega
    | succ i =>
      simp only [List.getElem?_cons_succ] at h
      simp only [List.set_cons_succ, closedCount_cons]
      have := ih i h; omega

theorem view_grow (a : Act H) (id j : Nat) : (a.grow id).view j = a.view j := by
  unfold Act.view Act.grow
  by_cases hj : j < a.first
  · simp [hj]
  · simp only [hj, if_false]
    by_cases hl : j - a.first < a.states.length
    · simp [List.getD_eq_getElem?_getD, List.getElem?_append_left hl]
    · rw [List.getD_eq_getElem?_getD, List.getElem?_append_right (by omega), List.getD_eq_getElem?_getD,
        List.getElem?_eq_none (l := a.states) (by omega), List.getElem?_replicate]
      split <;> rfl

theorem grow_done (a : Act H) (id : Nat) : (a.grow id).numberDone = a.numberDone := by
  have : closedCount (a.grow id).states = closedCount a.states := by
    unfold Act.grow; rw [closedCount_append, closedCount_replicate]; rfl
  exact congrArg (a.first + ·) this

theorem grow_get (a : Act H) (id : Nat) (h : ¬ id < a.first) :
    (a.grow id).states[id - a.first]? = some (a.view id) := by
  have hv := view_grow a id id
  have hlen : id - a.first < (a.grow id).states.length := by
    simp [Act.grow]; omega
  rw [← hv]; unfold Act.view
  have : (a.grow id).first = a.first := rfl
  rw [this, if_neg h, List.getD_eq_getElem?_getD, List.getElem?_eq_getElem hlen]; rfl

/-- What looking up a push gives. -/
theorem get_closed (a : Act H) (id : Nat) (h : a.view id = .closed) :
    ∃ a1, a.get id = (a1, none) ∧ (∀ j, a1.view j = a.view j) ∧ a1.numberDone = a.numberDone := by
  unfold Act.get
  by_cases hf : id < a.first
  · rw [if_pos hf]; exact ⟨a, rfl, fun _ => rfl, rfl⟩
  · rw [if_neg hf]
    simp only [grow_get a id hf, h]
    exact ⟨_, rfl, fun j => view_grow a id j, grow_done a id⟩

theorem get_open (a : Act H) (id : Nat) (h : a.view id ≠ .closed) :
    a.get id = (a.grow id, some (a.view id)) ∧ ¬ id < a.first := by
  have hf : ¬ id < a.first := by
    intro hf; exact h (by unfold Act.view; rw [if_pos hf])
  refine ⟨?_, hf⟩
  unfold Act.get; rw [if_neg hf]; simp only [grow_get a id hf]
  cases hv : a.view id <;> first | rfl | exact absurd hv h

theorem view_set (a : Act H) (id : Nat) (s : PState H) (hf : ¬ id < a.first) (j : Nat) :
    ((a.grow id).set id s).view j = if j = id then s else a.view j := by
  rw [← view_grow a id j]
  have hlen : id - a.first < (a.grow id).states.length := by simp [Act.grow]; omega
  have e1 : (a.grow id).first = a.first := rfl
  have e2 : ((a.grow id).set id s).first = a.first := rfl
  have e3 : ((a.grow id).set id s).states = (a.grow id).states.set (id - a.first) s := rfl
  unfold Act.view
  rw [e1, e2, e3]
  by_cases hj : j < a.first
  · rw [if_pos hj, if_pos hj, if_neg (by omega)]
  · rw [if_neg hj, if_neg hj, List.getD_eq_getElem?_getD, List.getElem?_set]
    by_cases e : j = id
    · subst e; rw [if_pos rfl, if_pos rfl, if_pos hlen]; rfl
    · rw [if_neg e, if_neg (by omega), List.getD_eq_getElem?_getD]

theorem done_set (a : Act H) (id : Nat) (s : PState H) (hf : ¬ id < a.first) :
    ((a.grow id).set id s).numberDone + (if a.view id = .closed then 1 else 0) =
      a.numberDone + (if s = .closed then 1 else 0) := by
  have h := closedCount_set _ _ _ s (grow_get a id hf)
  have h2 := grow_done a id
  unfold Act.numberDone at *
  have e1 : (a.grow id).first = a.first := rfl
  have e2 : ((a.grow id).set id s).first = a.first := rfl
  have e3 : ((a.grow id).set id s).states = (a.grow id).states.set (id - a.first) s := rfl
  rw [e2, e3]; rw [e1] at h2
  unfold closedCount at h
  omega

theorem view_pop (l : List (PState H)) (f j : Nat) :
    (Act.popClosed l f).view j = (⟨f, l⟩ : Act H).view j := by
  fun_induction Act.popClosed l f with
  | case1 l f ih =>
    rw [ih]; unfold Act.view
    simp only
    by_cases h1 : j < f
    · rw [if_pos h1, if_pos (by omega)]
    · rw [if_neg h1]
      by_cases h2 : j = f
      · subst h2; rw [if_pos (by omega), Nat.sub_self]; rfl
      · rw [if_neg (by omega), show j - f = (j - (f + 1)) + 1 by omega, List.getD_cons_succ]
  | case2 l f _ => rfl

theorem done_pop (l : List (PState H)) (f : Nat) :
    (Act.popClosed l f).numberDone = (⟨f, l⟩ : Act H).numberDone := by
  fun_induction Act.popClosed l f with
  | case1 l f ih =>
    rw [ih]
    have := closedCount_cons (.closed) l
    rw [if_pos rfl] at this
    show f + 1 + closedCount l = f + closedCount (.closed :: l); omega
  | case2 l f _ => rfl

/-- What closing a push does. -/
theorem close_spec (a : Act H) (id : Nat) :
    ∃ a1, a.close id = (a1, if a.view id = .closed then none else some (a.view id)) ∧
      (∀ j, a1.view j = if j = id then .closed else a.view j) ∧
      a1.numberDone = a.numberDone + (if a.view id = .closed then 0 else 1) := by
  by_cases h : a.view id = .closed
  · obtain ⟨a1, e, hv, hd⟩ := get_closed a id h
    refine ⟨a1, ?_, ?_, ?_⟩
    · unfold Act.close; rw [e, if_pos h]
    · intro j; rw [hv]; split
      · rename_i e; rw [e, h]
      · rfl
    · rw [hd, if_pos h]; rfl
  · obtain ⟨e, hf⟩ := get_open a id h
    refine ⟨Act.popClosed ((a.grow id).set id .closed).states a.first, ?_, ?_, ?_⟩
    · unfold Act.close; rw [e, if_neg h]; rfl
    · intro j; rw [view_pop]; exact view_set a id .closed hf j
    · rw [done_pop, if_neg h]
      have := done_set a id .closed hf
      rw [if_neg h, if_pos rfl] at this; exact this

theorem count_le (l : List (PState H)) (f n : Nat) (h : ∀ i, l[i]? = some .closed → f + i < n) :
    f + closedCount l ≤ max f n := by
  induction l generalizing f with
  | nil => simp [closedCount]; omega
  | cons s l ih =>
    rw [closedCount_cons]
    have := ih (f + 1) (fun i hi => by have := h (i + 1) (by simpa using hi); omega)
    by_cases hs : s = .closed
    · have := h 0 (by simp [hs])
      rw [if_pos hs]; omega
    · rw [if_neg hs]; omega

/-- The number of closed pushes is at most the number of IDs that can be closed. -/
theorem done_le (a : Act H) (n : Nat) (h : ∀ id, a.view id = .closed → id < n) : a.numberDone ≤ n := by
  have h1 : a.first ≤ n := by
    rcases Nat.eq_zero_or_pos a.first with e | hp
    · omega
    · have := h (a.first - 1) (by unfold Act.view; rw [if_pos (by omega)]); omega
  have := count_le a.states a.first n (fun i hi => h (a.first + i) (by
    unfold Act.view
    rw [if_neg (by omega), List.getD_eq_getElem?_getD, show a.first + i - a.first = i by omega, hi]; rfl))
  unfold Act.numberDone closedCount at *; omega

end Neqo.H3
