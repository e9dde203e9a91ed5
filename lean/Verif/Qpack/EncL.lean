import Verif.Qpack.Sync
import Verif.Qpack.HeaderL

/-! # Lemmas about the encoder -/
namespace Neqo.Qp
open Neqo.Codec

/-! ## Blocks that were not acknowledged -/

/-- Something is added up over the streams. -/
def Unacked.sum (f : List (List Nat) → Nat) (u : Unacked) : Nat := (u.map (fun x => f x.2)).sum

/-- How many blocks refer to an entry. -/
def uses (i : Nat) (l : List (List Nat)) : Nat := l.countP (fun b => decide (i ∈ b))

/-- How many blocks of all streams refer to an entry. -/
def Unacked.cnt (u : Unacked) (i : Nat) : Nat := u.sum (uses i)

/-- How many streams block. -/
def Unacked.blocked (u : Unacked) (a : Nat) : Nat := u.sum (fun l => if blocking a l then 1 else 0)

theorem blocked_eq (u : Unacked) (a : Nat) : (u.filter (fun x => blocking a x.2)).length = u.blocked a := by
  unfold Unacked.blocked Unacked.sum
  simp only
  induction u with
  | nil => rfl
  | cons x u ih =>
    rw [List.filter_cons, List.map_cons, List.sum_cons, ← ih]
    cases h : blocking a x.2
    · simp
    · simp; omega

theorem get_not {u : Unacked} {s : Nat} (h : s ∉ u.map Prod.fst) : u.get s = [] := by
  unfold Unacked.get
  have : u.find? (fun x => decide (x.1 = s)) = none := by
    rw [List.find?_eq_none]
    intro x hx hc
    exact h (List.mem_map.mpr ⟨x, hx, by simpa using hc⟩)
  rw [this]

theorem get_cons {u : Unacked} {x : Nat × List (List Nat)} {s : Nat} :
    Unacked.get (x :: u) s = if x.1 = s then x.2 else u.get s := by
  unfold Unacked.get
  rw [List.find?_cons]
  by_cases h : x.1 = s <;> simp [h]

theorem has_iff {u : Unacked} {s : Nat} : u.has s = true ↔ s ∈ u.map Prod.fst := by
  unfold Unacked.has
  rw [List.any_eq_true, List.mem_map]
  simp

theorem get_mem {u : Unacked} (hk : (u.map Prod.fst).Nodup) {x : Nat × List (List Nat)} (h : x ∈ u) : u.get x.1 = x.2 := by
  induction u with
  | nil => cases h
  | cons y u ih =>
    rw [List.map_cons, List.nodup_cons] at hk
    rw [get_cons]
    rcases List.mem_cons.mp h with rfl | h
    · simp
    · rw [if_neg, ih hk.2 h]
      intro hc
      exact hk.1 (List.mem_map.mpr ⟨x, h, hc.symm⟩)

theorem mem_of_get {u : Unacked} {s : Nat} (h : u.get s ≠ []) : (s, u.get s) ∈ u := by
  induction u with
  | nil => exact absurd rfl h
  | cons y u ih =>
    rw [get_cons] at h ⊢
    split
    · rename_i hc
      rw [← hc]; simp
    · rename_i hc
      rw [if_neg hc] at h
      exact List.mem_cons_of_mem _ (ih h)

theorem keys_remove (u : Unacked) (s : Nat) : (u.remove s).map Prod.fst = (u.map Prod.fst).filter (fun x => x ≠ s) := by
  unfold Unacked.remove
  rw [List.filter_map]
  rfl

theorem keys_set (u : Unacked) (s : Nat) (l : List (List Nat)) : (u.set s l).map Prod.fst = u.map Prod.fst := by
  unfold Unacked.set
  rw [List.map_map]
  apply List.map_congr_left
  intro x _
  simp only [Function.comp]
  split
  · rename_i h; exact h.symm
  · rfl

theorem sum_cons (f : List (List Nat) → Nat) (x : Nat × List (List Nat)) (u : Unacked) :
    Unacked.sum f (x :: u) = f x.2 + u.sum f := rfl

theorem remove_not {u : Unacked} {s : Nat} (h : s ∉ u.map Prod.fst) : u.remove s = u := by
  unfold Unacked.remove
  rw [List.filter_eq_self]
  intro x hx
  simp only [decide_eq_true_eq]
  intro hc
  exact h (List.mem_map.mpr ⟨x, hx, hc⟩)

theorem set_not {u : Unacked} {s : Nat} {l : List (List Nat)} (h : s ∉ u.map Prod.fst) : u.set s l = u := by
  unfold Unacked.set
  conv => rhs; rw [← List.map_id u]
  apply List.map_congr_left
  intro x hx
  rw [if_neg]
  · rfl
  · intro hc; exact h (List.mem_map.mpr ⟨x, hx, hc⟩)

theorem remove_cons (x : Nat × List (List Nat)) (u : Unacked) (s : Nat) :
    Unacked.remove (x :: u) s = if x.1 = s then u.remove s else x :: u.remove s := by
  unfold Unacked.remove
  rw [List.filter_cons]
  by_cases h : x.1 = s <;> simp [h]

theorem set_cons (x : Nat × List (List Nat)) (u : Unacked) (s : Nat) (l : List (List Nat)) :
    Unacked.set (x :: u) s l = (if x.1 = s then (s, l) else x) :: u.set s l := rfl

theorem sum_remove {u : Unacked} (hk : (u.map Prod.fst).Nodup) (f : List (List Nat) → Nat) (h0 : f [] = 0) (s : Nat) :
    (u.remove s).sum f + f (u.get s) = u.sum f := by
  induction u with
  | nil => simp [Unacked.remove, Unacked.get, Unacked.sum, h0]
  | cons x u ih =>
    rw [List.map_cons, List.nodup_cons] at hk
    rw [remove_cons, get_cons, sum_cons]
    by_cases h : x.1 = s
    · rw [if_pos h, if_pos h, remove_not (by rw [← h]; exact hk.1)]; omega
    · rw [if_neg h, if_neg h, sum_cons]
      have := ih hk.2
      omega

theorem sum_set {u : Unacked} (hk : (u.map Prod.fst).Nodup) (f : List (List Nat) → Nat) {s : Nat} (hs : s ∈ u.map Prod.fst) (l : List (List Nat)) :
    (u.set s l).sum f + f (u.get s) = u.sum f + f l := by
  induction u with
  | nil => cases hs
  | cons x u ih =>
    rw [List.map_cons, List.nodup_cons] at hk
    rw [set_cons, get_cons, sum_cons, sum_cons]
    by_cases h : x.1 = s
    · rw [if_pos h, if_pos h, set_not (by rw [← h]; exact hk.1)]; simp only; omega
    · rw [if_neg h, if_neg h]
      rw [List.map_cons] at hs
      rcases List.mem_cons.mp hs with hs | hs
      · exact absurd hs.symm h
      · have := ih hk.2 hs
        omega

theorem sum_append (f : List (List Nat) → Nat) (u w : Unacked) : Unacked.sum f (u ++ w) = u.sum f + Unacked.sum f w := by
  simp [Unacked.sum]

theorem sum_push {u : Unacked} (hk : (u.map Prod.fst).Nodup) (f : List (List Nat) → Nat) (h0 : f [] = 0) (s : Nat) (b : List Nat) :
    (u.push s b).sum f + f (u.get s) = u.sum f + f (u.get s ++ [b]) := by
  unfold Unacked.push
  split
  · rename_i h
    exact sum_set hk f (has_iff.mp h) _
  · rename_i h
    have hn : s ∉ u.map Prod.fst := fun hc => h (has_iff.mpr hc)
    rw [get_not hn, sum_append, h0]
    simp [Unacked.sum]

theorem get_remove (u : Unacked) (s j : Nat) : (u.remove s).get j = if j = s then [] else u.get j := by
  induction u with
  | nil => simp [Unacked.remove, Unacked.get]
  | cons x u ih =>
    rw [remove_cons, get_cons]
    by_cases h : x.1 = s
    · rw [if_pos h, ih]
      by_cases hj : j = s
      · rw [if_pos hj, if_pos hj]
      · rw [if_neg hj, if_neg hj, if_neg (by rw [h]; exact fun hc => hj hc.symm)]
    · rw [if_neg h, get_cons]
      by_cases hx : x.1 = j
      · rw [if_pos hx, if_pos hx, if_neg (by rw [← hx]; exact h)]
      · rw [if_neg hx, if_neg hx, ih]

theorem get_set {u : Unacked} {s : Nat} (hs : s ∈ u.map Prod.fst) (l : List (List Nat)) (j : Nat) :
    (u.set s l).get j = if j = s then l else u.get j := by
  induction u with
  | nil => cases hs
  | cons x u ih =>
    rw [set_cons, get_cons, get_cons]
    by_cases h : x.1 = s
    · rw [if_pos h]
      by_cases hj : j = s
      · rw [if_pos hj, if_pos hj.symm]
      · rw [if_neg hj, if_neg (fun hc => hj hc.symm), if_neg (by rw [h]; exact fun hc => hj hc.symm)]
        by_cases hs' : s ∈ u.map Prod.fst
        · rw [ih hs', if_neg hj]
        · rw [set_not hs']
    · rw [if_neg h]
      rw [List.map_cons] at hs
      rcases List.mem_cons.mp hs with hs | hs
      · exact absurd hs.symm h
      · rw [ih hs]
        by_cases hx : x.1 = j
        · rw [if_pos hx, if_pos hx, if_neg (by rw [← hx]; exact h)]
        · rw [if_neg hx, if_neg hx]

theorem get_append_not {u : Unacked} {s : Nat} (hs : s ∉ u.map Prod.fst) (l : List (List Nat)) (j : Nat) :
    Unacked.get (u ++ [(s, l)]) j = if j = s then l else u.get j := by
  induction u with
  | nil =>
    rw [List.nil_append, get_cons]
    by_cases h : j = s
    · rw [if_pos h, if_pos h.symm]
    · rw [if_neg h, if_neg (fun hc => h hc.symm)]
  | cons x u ih =>
    rw [List.map_cons, List.mem_cons, not_or] at hs
    rw [List.cons_append, get_cons, get_cons, ih hs.2]
    by_cases hx : x.1 = j
    · rw [if_pos hx, if_pos hx, if_neg (by rw [← hx]; exact fun hc => hs.1 hc.symm)]
    · rw [if_neg hx, if_neg hx]

theorem get_push (u : Unacked) (s : Nat) (b : List Nat) (j : Nat) :
    (u.push s b).get j = if j = s then u.get s ++ [b] else u.get j := by
  unfold Unacked.push
  split
  · rename_i h
    exact get_set (has_iff.mp h) _ _
  · rename_i h
    have hn : s ∉ u.map Prod.fst := fun hc => h (has_iff.mpr hc)
    rw [get_append_not hn, get_not hn]; rfl

theorem sum_pos {u : Unacked} {f : List (List Nat) → Nat} : 0 < u.sum f ↔ ∃ x ∈ u, 0 < f x.2 := by
  induction u with
  | nil => simp [Unacked.sum]
  | cons y u ih =>
    rw [sum_cons]
    constructor
    · intro h
      by_cases hy : 0 < f y.2
      · exact ⟨y, by simp, hy⟩
      · obtain ⟨x, hx, h2⟩ := ih.mp (by omega)
        exact ⟨x, by simp [hx], h2⟩
    · rintro ⟨x, hx, h2⟩
      rcases List.mem_cons.mp hx with rfl | hx
      · omega
      · have := ih.mpr ⟨x, hx, h2⟩; omega

/-- The blocks of the streams are as they should be. -/
structure Unacked.WF (u : Unacked) : Prop where
  keys : (u.map Prod.fst).Nodup
  queues : ∀ x ∈ u, x.2 ≠ []
  blocks : ∀ x ∈ u, ∀ b ∈ x.2, b ≠ [] ∧ b.Nodup

theorem Unacked.WF.has {u : Unacked} (hu : u.WF) {s : Nat} : u.has s = true ↔ u.get s ≠ [] := by
  rw [has_iff]
  constructor
  · intro h
    obtain ⟨x, hx, rfl⟩ := List.mem_map.mp h
    rw [get_mem hu.keys hx]
    exact hu.queues x hx
  · intro h
    exact List.mem_map.mpr ⟨_, mem_of_get h, rfl⟩

theorem Unacked.WF.get {u : Unacked} (hu : u.WF) {s : Nat} {b : List Nat} (h : b ∈ u.get s) : b ≠ [] ∧ b.Nodup := by
  have hne : u.get s ≠ [] := by intro hc; rw [hc] at h; cases h
  exact hu.blocks _ (mem_of_get hne) b h

theorem Unacked.WF.remove {u : Unacked} (hu : u.WF) (s : Nat) : (u.remove s).WF where
  keys := by rw [keys_remove]; exact hu.keys.filter _
  queues := fun x hx => hu.queues x (List.mem_filter.mp hx).1
  blocks := fun x hx => hu.blocks x (List.mem_filter.mp hx).1

theorem Unacked.WF.set {u : Unacked} (hu : u.WF) (s : Nat) {l : List (List Nat)} (hl : l ≠ []) (hb : ∀ b ∈ l, b ≠ [] ∧ b.Nodup) :
    (u.set s l).WF := by
  have hx : ∀ x ∈ u.set s l, x.2 = l ∨ x ∈ u := by
    intro x hx
    obtain ⟨y, hy, he⟩ := List.mem_map.mp hx
    split at he
    · left; rw [← he]
    · right; rw [← he]; exact hy
  refine ⟨by rw [keys_set]; exact hu.keys, ?_, ?_⟩
  · intro x h
    rcases hx x h with h | h
    · rw [h]; exact hl
    · exact hu.queues x h
  · intro x h
    rcases hx x h with h | h
    · rw [h]; exact hb
    · exact hu.blocks x h

theorem Unacked.WF.push {u : Unacked} (hu : u.WF) (s : Nat) {b : List Nat} (hb : b ≠ [] ∧ b.Nodup) : (u.push s b).WF := by
  unfold Unacked.push
  split
  · refine hu.set s (by simp) ?_
    intro x hx
    rcases List.mem_append.mp hx with hx | hx
    · exact hu.get hx
    · simp at hx; rw [hx]; exact hb
  · rename_i h
    have hn : s ∉ u.map Prod.fst := fun hc => h (has_iff.mpr hc)
    refine ⟨?_, ?_, ?_⟩
    · rw [List.map_append, List.nodup_append]
      refine ⟨hu.keys, by simp, ?_⟩
      intro a ha c hc he
      simp at hc
      rw [he, hc] at ha
      exact hn ha
    · intro x hx
      rcases List.mem_append.mp hx with hx | hx
      · exact hu.queues x hx
      · simp at hx; rw [hx]; simp
    · intro x hx
      rcases List.mem_append.mp hx with hx | hx
      · exact hu.blocks x hx
      · simp at hx; rw [hx]; simpa using hb

theorem length_push (u : Unacked) (s : Nat) (b : List Nat) : (u.push s b).length = if u.has s then u.length else u.length + 1 := by
  unfold Unacked.push
  split
  · simp [Unacked.set]
  · simp

theorem uses_le_one {i : Nat} {b : List Nat} : uses i [b] = if i ∈ b then 1 else 0 := by
  unfold uses
  by_cases h : i ∈ b <;> simp [h]

theorem uses_append (i : Nat) (a b : List (List Nat)) : uses i (a ++ b) = uses i a + uses i b := by
  simp [uses]

theorem uses_cons (i : Nat) (b : List Nat) (l : List (List Nat)) : uses i (b :: l) = uses i [b] + uses i l := by
  rw [← uses_append]; rfl

theorem uses_flatten {i : Nat} {l : List (List Nat)} (h : ∀ b ∈ l, b.Nodup) : l.flatten.count i = uses i l := by
  induction l with
  | nil => rfl
  | cons b l ih =>
    rw [List.flatten_cons, List.count_append, uses_cons, ih (fun x hx => h x (List.mem_cons_of_mem _ hx)), uses_le_one,
      (h b (by simp)).count]

theorem cnt_push {u : Unacked} (hu : u.WF) (s : Nat) (b : List Nat) (i : Nat) :
    (u.push s b).cnt i = u.cnt i + if i ∈ b then 1 else 0 := by
  have := sum_push hu.keys (uses i) rfl s b
  rw [uses_append, uses_le_one] at this
  unfold Unacked.cnt
  omega

theorem uses_pos {i : Nat} {l : List (List Nat)} : 0 < uses i l ↔ ∃ b ∈ l, i ∈ b := by
  unfold uses
  rw [List.countP_pos_iff]
  simp

theorem cnt_pos {u : Unacked} {i : Nat} (hu : u.WF) : 0 < u.cnt i ↔ ∃ s, ∃ b ∈ u.get s, i ∈ b := by
  unfold Unacked.cnt
  rw [sum_pos]
  constructor
  · rintro ⟨x, hx, h⟩
    obtain ⟨b, hb, hi⟩ := uses_pos.mp h
    exact ⟨x.1, b, by rw [get_mem hu.keys hx]; exact hb, hi⟩
  · rintro ⟨s, b, hb, hi⟩
    have hne : u.get s ≠ [] := by intro hc; rw [hc] at hb; cases hb
    exact ⟨_, mem_of_get hne, uses_pos.mpr ⟨b, hb, hi⟩⟩

theorem uses_get_le {u : Unacked} (hu : u.WF) (s i : Nat) : uses i (u.get s) ≤ u.cnt i := by
  have := sum_remove hu.keys (uses i) rfl s
  unfold Unacked.cnt
  omega

/-! ## References are given up -/

theorem removeRefs_ok {t : Table} (ht : t.WF) {l : List Nat} (h : ∀ i ∈ l, ∃ e, t.at i = some e ∧ l.count i ≤ e.refs) :
    ∃ t', removeRefs t l = .ok t' ∧ t'.WF ∧ t'.base = t.base ∧ t'.capacity = t.capacity ∧ t'.acked = t.acked ∧
      t'.plain = t.plain ∧ ∀ j, t'.at j = (t.at j).map (fun e => { e with refs := e.refs - l.count j }) := by
  induction l generalizing t with
  | nil =>
    refine ⟨t, rfl, ht, rfl, rfl, rfl, rfl, fun j => ?_⟩
    cases t.at j with
    | none => rfl
    | some e => simp
  | cons i l ih =>
    obtain ⟨e, he, hc⟩ := h i (by simp)
    rw [List.count_cons_self] at hc
    obtain ⟨t1, h1, h2, h3, h4, h5, -, h7⟩ := removeRef_ok ht he (by omega)
    obtain ⟨t', g1, g2, g3, g4, g5, g6, g7⟩ := ih h2 (by
      intro j hj
      rw [h7]
      by_cases hji : j = i
      · rw [if_pos hji]
        rw [hji]
        exact ⟨_, rfl, by simp only; omega⟩
      · rw [if_neg hji]
        obtain ⟨e', he', hc'⟩ := h j (List.mem_cons_of_mem _ hj)
        exact ⟨e', he', by rw [List.count_cons_of_ne (fun hh => hji hh.symm)] at hc'; exact hc'⟩)
    refine ⟨t', by unfold removeRefs; rw [h1]; exact g1, g2, g3.trans h3, g4.trans h4, g5.trans h5, g6.trans (plain_removeRef h1), fun j => ?_⟩
    rw [g7, h7]
    by_cases hji : j = i
    · subst hji
      rw [if_pos rfl, he, List.count_cons_self]
      simp only [Option.map_some]
      congr 2
      omega
    · rw [if_neg hji, List.count_cons_of_ne (fun hh => hji hh.symm)]

/-! ## The encoder -/

/-- Encoders that occur. -/
structure Enc.WF (e : Enc) : Prop where
  table : e.table.WF
  acked : e.table.acked = some e.acked
  unacked : e.unacked.WF
  refs : ∀ i d, e.table.at i = some d → d.refs = e.unacked.cnt i
  held : ∀ i, 0 < e.unacked.cnt i → (e.table.at i).isSome
  blocked : e.blockedCnt = e.unacked.blocked e.acked
  entries : e.maxEntries = e.table.capacity / 32
  old : e.table.dropped ≤ e.acked

theorem enc_new_wf (m k : Nat) (h : Bool) : (Enc.new m k h).WF where
  table := ⟨by simp [Enc.new, Table.new], by simp [Enc.new, Table.new], rfl, by simp [Enc.new, Table.new], by
    intro a ha; simp [Enc.new, Table.new] at ha; omega⟩
  acked := rfl
  unacked := ⟨by simp [Enc.new], by simp [Enc.new], by simp [Enc.new]⟩
  refs := by intro i d h; simp [Enc.new, Table.new, Table.at] at h
  held := by intro i h; simp [Enc.new, Unacked.cnt, Unacked.sum] at h
  blocked := rfl
  entries := by simp [Enc.new, Table.new]
  old := by simp [Enc.new, Table.new, Table.dropped]

theorem recalc_eq (e : Enc) : e.recalculate = { e with blockedCnt := e.unacked.blocked e.acked } := by
  unfold Enc.recalculate; rw [blocked_eq]

/-- Everything but the count of streams that block. -/
structure Enc.WF' (e : Enc) : Prop where
  table : e.table.WF
  acked : e.table.acked = some e.acked
  unacked : e.unacked.WF
  refs : ∀ i d, e.table.at i = some d → d.refs = e.unacked.cnt i
  held : ∀ i, 0 < e.unacked.cnt i → (e.table.at i).isSome
  entries : e.maxEntries = e.table.capacity / 32
  old : e.table.dropped ≤ e.acked

theorem Enc.WF.weak {e : Enc} (h : e.WF) : e.WF' := ⟨h.table, h.acked, h.unacked, h.refs, h.held, h.entries, h.old⟩

theorem insertCount_ok {e : Enc} (he : e.WF') {n : Nat} (hn : e.acked + n ≤ e.table.base) (h64 : e.table.base < 2 ^ 64) :
    ∃ e', e.insertCount n = .ok e' ∧ e'.WF ∧ e'.acked = e.acked + n ∧ e'.unacked = e.unacked ∧ e'.table.plain = e.table.plain ∧
      e' = { e with table := e'.table, blockedCnt := e'.blockedCnt } := by
  refine ⟨Enc.recalculate { e with table := { e.table with acked := some (e.acked + n) } }, ?_, ?_, ?_, ?_, ?_, ?_⟩
  · unfold Enc.insertCount Table.incrementAcked
    rw [he.acked]
    simp only
    rw [if_neg (by omega)]
  · rw [recalc_eq]
    exact ⟨⟨he.table.len, he.table.index, he.table.used, he.table.fits, by intro a ha; cases ha; exact hn⟩, rfl, he.unacked, he.refs, he.held, rfl, he.entries, by
      have := he.old
      show e.table.dropped ≤ e.acked + n
      omega⟩
  · rfl
  · rfl
  · rfl
  · rfl

/-- An increment that is not refused. -/
theorem insertCount_inv {e e' : Enc} (he : e.WF') {n : Nat} (h : e.insertCount n = .ok e') : e.acked + n ≤ e.table.base ∧ e.acked + n < 2 ^ 64 := by
  unfold Enc.insertCount Table.incrementAcked at h
  rw [he.acked] at h
  simp only at h
  split at h
  · cases h
  · rename_i t hh
    split at hh
    · cases hh
    · omega

theorem insertCount_err {e : Enc} {n : Nat} {x : Err} (h : e.insertCount n = .error x) : x = .decoderStream := by
  unfold Enc.insertCount at h
  split at h
  · cases h; rfl
  · cases h

/-- The largest entry that a block refers to, and one more. -/
def ackTo (a : Nat) (b : List Nat) : Nat := b.foldl (fun a i => if a ≤ i then i + 1 else a) a

theorem ackTo_max (a : Nat) (b : List Nat) : a ≤ ackTo a b ∧ (∀ i ∈ b, i < ackTo a b) ∧ (ackTo a b = a ∨ ∃ i ∈ b, ackTo a b = i + 1) := by
  induction b generalizing a with
  | nil => exact ⟨Nat.le_refl _, by simp, Or.inl rfl⟩
  | cons i b ih =>
    have hs : ackTo a (i :: b) = ackTo (if a ≤ i then i + 1 else a) b := rfl
    rw [hs]
    by_cases hc : a ≤ i
    · rw [if_pos hc]
      obtain ⟨h1, h2, h3⟩ := ih (i + 1)
      refine ⟨by omega, ?_, ?_⟩
      · intro j hj
        rcases List.mem_cons.mp hj with rfl | hj
        · omega
        · exact h2 j hj
      · rcases h3 with h3 | ⟨j, hj, h3⟩
        · exact Or.inr ⟨i, by simp, h3⟩
        · exact Or.inr ⟨j, by simp [hj], h3⟩
    · rw [if_neg hc]
      obtain ⟨h1, h2, h3⟩ := ih a
      refine ⟨h1, ?_, ?_⟩
      · intro j hj
        rcases List.mem_cons.mp hj with rfl | hj
        · omega
        · exact h2 j hj
      · rcases h3 with h3 | ⟨j, hj, h3⟩
        · exact Or.inl h3
        · exact Or.inr ⟨j, by simp [hj], h3⟩

theorem blocking_false {a : Nat} {l : List (List Nat)} : blocking a l = false ↔ ∀ b ∈ l, ∀ i ∈ b, i < a := by
  unfold blocking
  simp [List.any_eq_false]

theorem blocking_true {a : Nat} {l : List (List Nat)} : blocking a l = true ↔ ∃ b ∈ l, ∃ i ∈ b, a ≤ i := by
  unfold blocking
  simp [List.any_eq_true]

theorem blocking_mono {a a' : Nat} (h : a ≤ a') {l : List (List Nat)} (hb : blocking a' l = true) : blocking a l = true := by
  obtain ⟨b, hb1, i, hi1, hi2⟩ := blocking_true.mp hb
  exact blocking_true.mpr ⟨b, hb1, i, hi1, by omega⟩

theorem blocked_mono (u : Unacked) {a a' : Nat} (h : a ≤ a') : u.blocked a' ≤ u.blocked a := by
  unfold Unacked.blocked
  induction u with
  | nil => exact Nat.le_refl _
  | cons x u ih =>
    rw [sum_cons, sum_cons]
    cases hb : blocking a' x.2
    · simp; omega
    · rw [blocking_mono h hb]; simp; omega

/-- After references were given up, with those of some blocks. -/
theorem release {e : Enc} (he : e.WF') {l : List (List Nat)} {u : Unacked} (hu : u.WF) (hl : ∀ b ∈ l, b.Nodup)
    (hs : ∀ i, u.cnt i + uses i l = e.unacked.cnt i) :
    ∃ t', removeRefs e.table l.flatten = .ok t' ∧ t'.plain = e.table.plain ∧ t'.base = e.table.base ∧ t'.acked = e.table.acked ∧
      Enc.WF' { e with table := t', unacked := u } := by
  obtain ⟨t', h1, h2, h3, h4, h5, h6, h7⟩ := removeRefs_ok he.table (l := l.flatten) (by
    intro i hi
    obtain ⟨b, hb, hib⟩ := List.mem_flatten.mp hi
    have hpos : 0 < uses i l := uses_pos.mpr ⟨b, hb, hib⟩
    have := hs i
    obtain ⟨d, hd⟩ := Option.isSome_iff_exists.mp (he.held i (by omega))
    exact ⟨d, hd, by rw [he.refs i d hd, uses_flatten hl]; omega⟩)
  refine ⟨t', h1, h6, h3, h5, h2, ?_, hu, ?_, ?_, ?_, ?_⟩
  · show t'.acked = some (t'.acked.getD 0)
    rw [h5, he.acked]; rfl
  · intro i d hd
    rw [h7] at hd
    cases ho : e.table.at i with
    | none => rw [ho] at hd; cases hd
    | some x =>
      rw [ho] at hd
      cases hd
      have := hs i
      have := he.refs i x ho
      simp only [uses_flatten hl]
      omega
  · intro i hi
    rw [h7]
    have := hs i
    have := he.held i (by show 0 < e.unacked.cnt i; simp only at hi; omega)
    simpa using this
  · show e.maxEntries = t'.capacity / 32
    rw [h4]; exact he.entries
  · show t'.dropped ≤ t'.acked.getD 0
    rw [h5, ← plain_dropped, h6, plain_dropped]; exact he.old

theorem has_mem {t : Table} (ht : t.WF) {i : Nat} (h : (t.at i).isSome) : i < t.base := ((at_range ht).mp h).2

/-- A header acknowledgment for a stream with blocks. -/
theorem headerAck_ok {e : Enc} (he : e.WF) (h64 : e.table.base < 2 ^ 64) {s : Nat} {b : List Nat} {l : List (List Nat)}
    (hg : e.unacked.get s = b :: l) :
    ∃ e', e.headerAck s = .ok e' ∧ e'.WF ∧ e'.acked = ackTo e.acked b ∧ e'.table.plain = e.table.plain ∧
      (∀ j, e'.unacked.get j = if j = s then l else e.unacked.get j) ∧
      e' = { e with table := e'.table, unacked := e'.unacked, blockedCnt := e'.blockedCnt } ∧ e'.unacked.length ≤ e.unacked.length ∧
      e'.blockedCnt ≤ e.blockedCnt := by
  have hhas : e.unacked.has s = true := he.unacked.has.mpr (by rw [hg]; simp)
  have hmem := has_iff.mp hhas
  have hb : ∀ x ∈ [b], x.Nodup := by
    intro x hx
    simp at hx
    rw [hx]
    exact (he.unacked.get (s := s) (by rw [hg]; simp)).2
  generalize hu : (if l = [] then e.unacked.remove s else e.unacked.set s l) = u
  have huw : u.WF := by
    rw [← hu]
    split
    · exact he.unacked.remove s
    · rename_i hl
      exact he.unacked.set s hl (fun x hx => he.unacked.get (s := s) (by rw [hg]; simp [hx]))
  have hug : ∀ j, u.get j = if j = s then l else e.unacked.get j := by
    intro j
    rw [← hu]
    split
    · rename_i hl
      rw [get_remove, hl]
    · exact get_set hmem l j
  have hsum : ∀ f : List (List Nat) → Nat, f [] = 0 → u.sum f + f (b :: l) = e.unacked.sum f + f l := by
    intro f h0
    rw [← hu, ← hg]
    split
    · rename_i hl
      have := sum_remove he.unacked.keys f h0 s
      rw [hl, h0]; omega
    · exact sum_set he.unacked.keys f hmem l
  have hcnt : ∀ i, u.cnt i + uses i [b] = e.unacked.cnt i := by
    intro i
    have := hsum (uses i) rfl
    rw [uses_cons] at this
    unfold Unacked.cnt
    omega
  have hlen : u.length ≤ e.unacked.length := by
    rw [← hu]
    split
    · exact List.length_filter_le ..
    · simp [Unacked.set]
  obtain ⟨t', r1, r2, r3, r4, r5⟩ := release he.weak huw hb hcnt
  rw [List.flatten_singleton] at r1
  have hack : ({ e with table := t', unacked := u } : Enc).acked = e.acked := by
    show t'.acked.getD 0 = e.table.acked.getD 0
    rw [r4]
  have hmono : u.blocked e.acked ≤ e.unacked.blocked e.acked := by
    have hq := hsum (fun l => if blocking e.acked l then 1 else 0) rfl
    have hb1 : blocking e.acked l = true → blocking e.acked (b :: l) = true := by
      intro hh
      have : blocking e.acked (b :: l) = (b.any (fun i => decide (e.acked ≤ i)) || blocking e.acked l) := rfl
      rw [this, hh, Bool.or_true]
    unfold Unacked.blocked
    cases hbl : blocking e.acked l
    · rw [hbl] at hq; simp at hq; omega
    · rw [hbl, hb1 hbl] at hq; simp at hq; omega
  obtain ⟨m1, m2, m3⟩ := ackTo_max e.acked b
  have hbase : ackTo e.acked b ≤ e.table.base := by
    rcases m3 with h | ⟨i, hi, h⟩
    · rw [h]; exact he.table.acked _ he.acked
    · rw [h]
      refine has_mem he.table (he.held i ?_)
      have := hcnt i
      rw [uses_le_one, if_pos hi] at this
      omega
  unfold Enc.headerAck
  rw [if_pos hhas, hg]
  simp only
  rw [r1]
  simp only
  rw [hu]
  change ∃ e', (if e.acked < ackTo e.acked b then Enc.insertCount { e with table := t', unacked := u } (ackTo e.acked b - e.acked) else .ok { e with table := t', unacked := u }) = _ ∧ _
  by_cases hlt : e.acked < ackTo e.acked b
  · rw [if_pos hlt]
    obtain ⟨e', q1, q2, q3, q4, q5, q6⟩ := insertCount_ok r5 (n := ackTo e.acked b - e.acked) (by rw [hack]; simp only; rw [r3]; omega) (by simp only; omega)
    refine ⟨e', q1, q2, by rw [q3, hack]; omega, by rw [q5]; exact r2, by intro j; rw [q4]; exact hug j, ?_, by rw [q4]; exact hlen, ?_⟩
    · rw [q6]
    · rw [q2.blocked, he.blocked, q4]
      exact le_trans (blocked_mono u (a := e.acked) (by rw [q3, hack]; omega)) hmono
  · rw [if_neg hlt]
    have heq : ackTo e.acked b = e.acked := by omega
    refine ⟨_, rfl, ⟨r5.table, r5.acked, r5.unacked, r5.refs, r5.held, ?_, r5.entries, r5.old⟩, by rw [heq]; exact hack, r2, hug, rfl, hlen, Nat.le_refl _⟩
    rw [hack]
    have := hsum (fun l => if blocking e.acked l then 1 else 0) rfl
    have hbb := he.blocked
    have : (blocking e.acked (b :: l)) = blocking e.acked l := by
      have : blocking e.acked (b :: l) = (b.any (fun i => decide (e.acked ≤ i)) || blocking e.acked l) := rfl
      rw [this]
      have : b.any (fun i => decide (e.acked ≤ i)) = false := by
        rw [List.any_eq_false]
        intro i hi
        have := m2 i hi
        simp; omega
      rw [this, Bool.false_or]
    have hq := hsum (fun l => if blocking e.acked l then 1 else 0) rfl
    simp only [this] at hq
    unfold Unacked.blocked at hbb ⊢
    simp only at hbb ⊢
    omega

/-- A cancellation. -/
theorem cancelled_ok {e : Enc} (he : e.WF) (s : Nat) :
    ∃ e', e.cancelled s = .ok e' ∧ e'.WF ∧ e'.acked = e.acked ∧ e'.table.plain = e.table.plain ∧
      (∀ j, e'.unacked.get j = if j = s then [] else e.unacked.get j) ∧
      e' = { e with table := e'.table, unacked := e'.unacked, blockedCnt := e'.blockedCnt } ∧ e'.unacked.length ≤ e.unacked.length ∧
      e'.blockedCnt ≤ e.blockedCnt := by
  obtain ⟨t', r1, r2, r3, r4, r5⟩ := release he.weak (l := e.unacked.get s) (he.unacked.remove s) (fun b hb => (he.unacked.get hb).2)
    (fun i => sum_remove he.unacked.keys (uses i) rfl s)
  have hlen : (e.unacked.remove s).length ≤ e.unacked.length := List.length_filter_le ..
  have hack : ({ e with table := t', unacked := e.unacked.remove s } : Enc).acked = e.acked := by
    show t'.acked.getD 0 = e.table.acked.getD 0
    rw [r4]
  have hsum := sum_remove he.unacked.keys (fun l => if blocking e.acked l then 1 else 0) rfl s
  have hbb := he.blocked
  unfold Enc.cancelled
  simp only
  rw [r1]
  simp only
  by_cases hc : blocking e.acked (e.unacked.get s) = true
  · simp only [hc] at hsum
    rw [if_pos hc, if_neg (by unfold Unacked.blocked at hbb; simp at hsum; omega)]
    refine ⟨_, rfl, ⟨r5.table, r5.acked, r5.unacked, r5.refs, r5.held, ?_, r5.entries, r5.old⟩, hack, r2, get_remove _ _, rfl, hlen, by simp⟩
    show e.blockedCnt - 1 = Unacked.blocked (e.unacked.remove s) (t'.acked.getD 0)
    rw [r4]
    change e.blockedCnt - 1 = Unacked.blocked (e.unacked.remove s) e.acked
    unfold Unacked.blocked at hbb ⊢
    simp at hsum
    omega
  · rw [if_neg hc]
    refine ⟨_, rfl, ⟨r5.table, r5.acked, r5.unacked, r5.refs, r5.held, ?_, r5.entries, r5.old⟩, hack, r2, get_remove _ _, rfl, hlen, by simp⟩
    show e.blockedCnt = Unacked.blocked (e.unacked.remove s) (t'.acked.getD 0)
    rw [r4]
    change e.blockedCnt = Unacked.blocked (e.unacked.remove s) e.acked
    unfold Unacked.blocked at hbb ⊢
    simp [hc] at hsum
    omega

/-- Whatever instruction comes from the peer. -/
theorem exec_any {e : Enc} (he : e.WF) (h64 : e.table.base < 2 ^ 64) (i : DecInstr) :
    (∃ e', e.exec i = .ok e' ∧ e'.WF ∧ e'.table.plain = e.table.plain ∧ e'.unacked.length ≤ e.unacked.length ∧ e'.blockedCnt ≤ e.blockedCnt ∧
      e' = { e with table := e'.table, unacked := e'.unacked, blockedCnt := e'.blockedCnt }) ∨ e.exec i = .error .decoderStream := by
  cases i with
  | increment n =>
    unfold Enc.exec
    simp only
    by_cases hn : n = 0
    · right; rw [if_pos hn]
    · rw [if_neg hn]
      cases hi : e.insertCount n with
      | error x => right; rw [insertCount_err hi]
      | ok e' =>
        left
        obtain ⟨h1, -⟩ := insertCount_inv he.weak hi
        obtain ⟨e'', q1, q2, q3, q4, q5, q6⟩ := insertCount_ok he.weak h1 h64
        rw [hi] at q1
        cases q1
        refine ⟨_, rfl, q2, q5, by rw [q4], ?_, by rw [q6]⟩
        rw [q2.blocked, he.blocked, q4]
        exact blocked_mono _ (by omega)
  | headerAck s =>
    cases hg : e.unacked.get s with
    | nil =>
      right
      have : e.unacked.has s = false := by
        cases hh : e.unacked.has s
        · rfl
        · exact absurd hg (he.unacked.has.mp hh)
      show e.headerAck s = _
      unfold Enc.headerAck
      rw [this]; rfl
    | cons b l =>
      left
      obtain ⟨e', h1, h2, h3, h4, h5, h6, h7, h8⟩ := headerAck_ok he h64 hg
      exact ⟨e', h1, h2, h4, h7, h8, h6⟩
  | cancel s =>
    left
    obtain ⟨e', h1, h2, h3, h4, h5, h6, h7, h8⟩ := cancelled_ok he s
    exact ⟨e', h1, h2, h4, h7, h8, h6⟩

end Neqo.Qp
