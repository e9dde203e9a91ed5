import Verif.Sched.Lemmas

namespace Neqo.Sched

/-- A vector read from a place on, wrapping around. -/
def rot (l : List Nat) (n : Nat) : List Nat := l.drop n ++ l.take n

theorem rot_length (l : List Nat) (n : Nat) : (rot l n).length = l.length := by
  unfold rot
  rw [List.length_append, List.length_drop, List.length_take]
  omega

theorem mem_rot {l : List Nat} {n x : Nat} : x ∈ rot l n ↔ x ∈ l := by
  unfold rot
  rw [List.mem_append, Or.comm, ← List.mem_append, List.take_append_drop]

theorem rot_perm (l : List Nat) (n : Nat) : (rot l n).Perm l := by
  have : (l.drop n ++ l.take n).Perm (l.take n ++ l.drop n) := List.perm_append_comm
  rw [List.take_append_drop] at this
  exact this

theorem rot_zero (l : List Nat) : rot l 0 = l := by simp [rot]

theorem rot_cons {l : List Nat} {n : Nat} (h : n < l.length) :
    rot l n = l.getD n 0 :: (l.drop (n + 1) ++ l.take n) := by
  unfold rot
  rw [List.drop_eq_getElem_cons h, List.getD_eq_getElem?_getD, List.getElem?_eq_getElem h]
  rfl

theorem rot_succ {l : List Nat} {n : Nat} (h : n < l.length) :
    rot l ((n + 1) % l.length) = (l.drop (n + 1) ++ l.take n) ++ [l.getD n 0] := by
  have hg : l.getD n 0 = l[n] := by
    rw [List.getD_eq_getElem?_getD, List.getElem?_eq_getElem h]; rfl
  rw [hg]
  by_cases h1 : n + 1 = l.length
  · rw [h1, Nat.mod_self, rot_zero, List.drop_length, List.nil_append]
    have : l.take (n + 1) = l.take n ++ [l[n]] := List.take_succ_eq_append_getElem h
    rw [← this, h1, List.take_length]
  · rw [Nat.mod_eq_of_lt (by omega)]
    unfold rot
    rw [List.take_succ_eq_append_getElem h, List.append_assoc]

/-- The place a cursor stands for: past the end means the start. -/
theorem Og.iter_g (g : Og) : g.iter.g = { g with next := clamp g.next g.vec.length } := by
  unfold Og.iter clamp
  dsimp only
  by_cases h : g.vec.length ≤ g.next
  · rw [if_pos h, if_pos h]
  · rw [if_neg h, if_neg h]

/-- The order in which the next pass visits the streams of a bucket. -/
def Og.order (g : Og) : List Nat := rot g.vec (clamp g.next g.vec.length)

theorem clamp_lt {n len : Nat} (h : 0 < len) : clamp n len < len := by
  unfold clamp
  by_cases hh : len ≤ n
  · rw [if_pos hh]; exact h
  · rw [if_neg hh]; omega

theorem clamp_of_lt {n len : Nat} (h : n < len) : clamp n len = n := by
  unfold clamp
  rw [if_neg (by omega)]

/-- What an iterator is still to visit. -/
def It.rest (i : It) : List Nat :=
  match i.started with
  | none => rot i.g.vec i.g.next
  | some s => (rot i.g.vec i.g.next).take ((s + i.g.vec.length - i.g.next) % i.g.vec.length)

/-- Iterators in use. -/
structure It.Ok (i : It) : Prop where
  next : i.g.vec ≠ [] → i.g.next < i.g.vec.length
  started : ∀ s, i.started = some s → i.g.vec ≠ [] → s < i.g.vec.length

theorem Og.iter_ok (g : Og) : g.iter.Ok := by
  refine ⟨fun h => ?_, fun s hs => by cases hs⟩
  rw [Og.iter_g] at h ⊢
  exact clamp_lt (List.length_pos_iff.mpr h)

theorem Og.iter_rest (g : Og) : g.iter.rest = g.order := by
  show rot g.iter.g.vec g.iter.g.next = _
  rw [Og.iter_g]
  rfl

/-- An iterator in use has a valid index. -/
theorem It.ok_get {i : It} (h : i.Ok) (hne : i.g.vec ≠ []) : i.g.vec[i.g.next]? = some (i.g.vec.getD i.g.next 0) := by
  rw [List.getD_eq_getElem?_getD, List.getElem?_eq_getElem (h.next hne)]
  rfl

theorem dist_eq {s n len : Nat} (hs : s < len) (hn : n < len) :
    (s + len - n) % len = if n ≤ s then s - n else s + len - n := by
  by_cases h : n ≤ s
  · rw [if_pos h, show s + len - n = (s - n) + len by omega, Nat.add_mod_right, Nat.mod_eq_of_lt (by omega)]
  · rw [if_neg h, Nat.mod_eq_of_lt (by omega)]

theorem succ_mod {n len : Nat} (hn : n < len) : (n + 1) % len = if n + 1 = len then 0 else n + 1 := by
  by_cases h : n + 1 = len
  · rw [if_pos h, h, Nat.mod_self]
  · rw [if_neg h, Nat.mod_eq_of_lt (by omega)]

/-- One step of an iterator. -/
theorem It.step_spec {i : It} (h : i.Ok) :
    (i.step = (i, none) ∧ i.rest = []) ∨
    (∃ i' id, i.step = (i', some id) ∧ i'.Ok ∧ i'.g.vec = i.g.vec ∧ i.rest = id :: i'.rest) := by
  unfold It.step
  by_cases hv : i.g.vec = []
  · left
    rw [if_pos (Or.inr hv)]
    refine ⟨rfl, ?_⟩
    unfold It.rest
    rw [hv]
    cases i.started with
    | none => simp [rot]
    | some s => simp [rot]
  · have hn := h.next hv
    cases hs : i.started with
    | none =>
      right
      rw [if_neg (by rintro (hh | hh); cases hh; exact hv hh)]
      refine ⟨_, _, rfl, ⟨fun _ => Nat.mod_lt _ (by omega), fun s hs' hv' => ?_⟩, rfl, ?_⟩
      · have : s = i.g.next := by
          have := Option.some.inj hs'
          exact this.symm
        rw [this]; exact hn
      · have hr : i.rest = rot i.g.vec i.g.next := by unfold It.rest; rw [hs]
        rw [hr, rot_cons hn]
        congr 1
        show _ = (rot i.g.vec ((i.g.next + 1) % i.g.vec.length)).take
          ((i.g.next + i.g.vec.length - (i.g.next + 1) % i.g.vec.length) % i.g.vec.length)
        rw [rot_succ hn, dist_eq hn (Nat.mod_lt _ (by omega)), succ_mod hn]
        have hl : (i.g.vec.drop (i.g.next + 1) ++ i.g.vec.take i.g.next).length = i.g.vec.length - 1 := by
          rw [List.length_append, List.length_drop, List.length_take]; omega
        have hc : (if (if i.g.next + 1 = i.g.vec.length then 0 else i.g.next + 1) ≤ i.g.next then
            i.g.next - (if i.g.next + 1 = i.g.vec.length then 0 else i.g.next + 1)
            else i.g.next + i.g.vec.length - (if i.g.next + 1 = i.g.vec.length then 0 else i.g.next + 1)) =
            i.g.vec.length - 1 := by
          by_cases b : i.g.next + 1 = i.g.vec.length
          · rw [if_pos b, if_pos (by omega)]; omega
          · rw [if_neg b, if_neg (by omega)]; omega
        rw [hc]
        generalize i.g.vec.drop (i.g.next + 1) ++ i.g.vec.take i.g.next = x at hl ⊢
        rw [← hl, List.take_left]
    | some s =>
      have hs' := h.started s hs hv
      by_cases he : s = i.g.next
      · left
        rw [if_pos (Or.inl (by rw [he]))]
        refine ⟨rfl, ?_⟩
        unfold It.rest
        rw [hs]
        dsimp only
        rw [he, dist_eq hn hn, if_pos (Nat.le_refl _), Nat.sub_self, List.take_zero]
      · right
        rw [if_neg (by rintro (hh | hh); exact he (Option.some.inj hh); exact hv hh)]
        refine ⟨_, _, rfl, ⟨fun _ => Nat.mod_lt _ (by omega), fun s1 hs1 _ => ?_⟩, rfl, ?_⟩
        · have : s1 = s := (Option.some.inj hs1).symm
          rw [this]; exact hs'
        · have hr : i.rest = (rot i.g.vec i.g.next).take ((s + i.g.vec.length - i.g.next) % i.g.vec.length) := by
            unfold It.rest; rw [hs]
          rw [hr, rot_cons hn, dist_eq hs' hn]
          have hpos : (if i.g.next ≤ s then s - i.g.next else s + i.g.vec.length - i.g.next) =
            ((if i.g.next ≤ s then s - i.g.next else s + i.g.vec.length - i.g.next) - 1) + 1 := by
            split <;> omega
          rw [hpos, List.take_succ_cons]
          congr 1
          show _ = (rot i.g.vec ((i.g.next + 1) % i.g.vec.length)).take
            ((s + i.g.vec.length - (i.g.next + 1) % i.g.vec.length) % i.g.vec.length)
          rw [rot_succ hn, dist_eq hs' (Nat.mod_lt _ (by omega)), succ_mod hn]
          have hl : (i.g.vec.drop (i.g.next + 1) ++ i.g.vec.take i.g.next).length = i.g.vec.length - 1 := by
            rw [List.length_append, List.length_drop, List.length_take]; omega
          have hc : ((if i.g.next ≤ s then s - i.g.next else s + i.g.vec.length - i.g.next) - 1) =
              (if (if i.g.next + 1 = i.g.vec.length then 0 else i.g.next + 1) ≤ s then
                s - (if i.g.next + 1 = i.g.vec.length then 0 else i.g.next + 1)
                else s + i.g.vec.length - (if i.g.next + 1 = i.g.vec.length then 0 else i.g.next + 1)) := by
            by_cases a : i.g.next ≤ s
            · rw [if_pos a]
              by_cases b : i.g.next + 1 = i.g.vec.length
              · omega
              · rw [if_neg b, if_pos (by omega)]; omega
            · rw [if_neg a]
              by_cases b : i.g.next + 1 = i.g.vec.length
              · rw [if_pos b, if_pos (by omega)]; omega
              · rw [if_neg b, if_neg (by omega)]; omega
          rw [← hc]
          generalize i.g.vec.drop (i.g.next + 1) ++ i.g.vec.take i.g.next = x at hl ⊢
          rw [List.take_append_of_le_length]
          rw [hl]
          split <;> omega

/-- The first `k` streams an iterator visits, and the iterator after them. -/
def It.visit : Nat → It → It × List Nat
  | 0, i => (i, [])
  | k + 1, i =>
    match i.step with
    | (i, none) => (i, [])
    | (i, some id) =>
      match It.visit k i with
      | (i, l) => (i, id :: l)

theorem It.visit_spec {k : Nat} {i : It} (h : i.Ok) :
    (It.visit k i).2 = i.rest.take k ∧ (It.visit k i).1.g.vec = i.g.vec := by
  induction k generalizing i with
  | zero => exact ⟨rfl, rfl⟩
  | succ k ih =>
    unfold It.visit
    rcases It.step_spec h with ⟨h1, h2⟩ | ⟨i', id, h1, h2, h3, h4⟩
    · rw [h1, h2]; exact ⟨rfl, rfl⟩
    · rw [h1, h4]
      obtain ⟨h5, h6⟩ := ih h2
      dsimp only
      refine ⟨?_, ?_⟩
      · rw [h5]; rfl
      · rw [h6, h3]

/-- Where the cursor is after `k` visits. -/
theorem It.visit_next {k : Nat} {i : It} (h : i.Ok) (hk : k ≤ i.rest.length) :
    (It.visit k i).1.g.next % i.g.vec.length = (i.g.next + k) % i.g.vec.length := by
  induction k generalizing i with
  | zero => rfl
  | succ k ih =>
    unfold It.visit
    rcases It.step_spec h with ⟨h1, h2⟩ | ⟨i', id, h1, h2, h3, h4⟩
    · rw [h2] at hk; cases hk
    · rw [h1]
      rw [h4] at hk
      have := ih h2 (by simpa using hk)
      dsimp only
      rw [h3] at this
      rw [this]
      have hn : i'.g.next = (i.g.next + 1) % i.g.vec.length := by
        unfold It.step at h1
        split at h1
        · cases (Prod.mk.inj h1).2
        · rw [← (Prod.mk.inj h1).1]
      rw [hn, Nat.mod_add_mod]
      congr 1
      omega

theorem rot_rot (l : List Nat) (n k : Nat) (hn : n < l.length) (hk : k ≤ l.length) :
    rot l ((n + k) % l.length) = (rot l n).drop k ++ (rot l n).take k := by
  induction k with
  | zero => rw [Nat.add_zero, Nat.mod_eq_of_lt hn]; simp
  | succ k ih =>
    have ih := ih (by omega)
    have hlt : (n + k) % l.length < l.length := Nat.mod_lt _ (by omega)
    have hm : (n + (k + 1)) % l.length = ((n + k) % l.length + 1) % l.length := by
      rw [Nat.mod_add_mod]; rfl
    rw [hm, rot_succ hlt]
    rw [rot_cons hlt] at ih
    have hkl : k < (rot l n).length := by rw [rot_length]; omega
    rw [List.drop_eq_getElem_cons hkl, List.cons_append] at ih
    obtain ⟨h1, h2⟩ := List.cons.inj ih
    rw [h2, h1, List.take_succ_eq_append_getElem hkl, List.append_assoc]

end Neqo.Sched
