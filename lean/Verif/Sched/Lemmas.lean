import Verif.Sched.Model
import Mathlib.Tactic.ByContra

namespace Neqo.Sched

/-! ### `IndexMap` -/

section im
variable {α : Type}

/-- The keys are distinct. -/
def Keys (m : List (Nat × α)) : Prop := (m.map (·.1)).Nodup

theorem imFind_cons (k : Nat) (e : Nat × α) (m : List (Nat × α)) :
    imFind (e :: m) k = if e.1 = k then some e.2 else imFind m k := by
  unfold imFind
  rw [List.find?_cons]
  by_cases h : e.1 = k
  · rw [if_pos h, show (e.1 == k) = true from beq_iff_eq.mpr h]; rfl
  · rw [if_neg h, show (e.1 == k) = false from beq_false_of_ne h]

theorem mem_of_imFind {m : List (Nat × α)} {k : Nat} {v : α} (h : imFind m k = some v) : (k, v) ∈ m := by
  induction m with
  | nil => cases h
  | cons e m ih =>
    rw [imFind_cons] at h
    by_cases he : e.1 = k
    · rw [if_pos he] at h
      obtain rfl := Option.some.inj h
      rw [← he]
      exact List.mem_cons_self
    · rw [if_neg he] at h
      exact List.mem_cons_of_mem _ (ih h)

theorem imFind_eq_none {m : List (Nat × α)} {k : Nat} : imFind m k = none ↔ k ∉ m.map (·.1) := by
  induction m with
  | nil => simp [imFind]
  | cons e m ih =>
    rw [imFind_cons, List.map_cons, List.mem_cons]
    by_cases he : e.1 = k
    · rw [if_pos he]; simp [he]
    · rw [if_neg he, ih]
      constructor
      · intro h h'
        rcases h' with h' | h'
        · exact he h'.symm
        · exact h h'
      · intro h h'
        exact h (Or.inr h')

theorem imFind_isSome {m : List (Nat × α)} {k : Nat} : (imFind m k).isSome = true ↔ k ∈ m.map (·.1) := by
  cases h : imFind m k with
  | none =>
    have := imFind_eq_none.mp h
    simp only [Option.isSome_none]
    constructor
    · intro h; cases h
    · intro h'; exact absurd h' this
  | some v =>
    simp only [Option.isSome_some, true_iff]
    exact List.mem_map.mpr ⟨_, mem_of_imFind h, rfl⟩

theorem Keys.find {m : List (Nat × α)} (hk : Keys m) {k : Nat} {v : α} (h : (k, v) ∈ m) :
    imFind m k = some v := by
  induction m with
  | nil => cases h
  | cons e m ih =>
    rw [imFind_cons]
    have hk' := List.nodup_cons.mp (show (e.1 :: m.map (·.1)).Nodup from hk)
    rcases List.mem_cons.mp h with rfl | h
    · rw [if_pos rfl]
    · by_cases he : e.1 = k
      · exact absurd (List.mem_map.mpr ⟨(k, v), h, rfl⟩) (he ▸ hk'.1)
      · rw [if_neg he]; exact ih hk'.2 h

theorem imSet_keys (m : List (Nat × α)) (k : Nat) (v : α) : (imSet m k v).map (·.1) = m.map (·.1) := by
  unfold imSet
  rw [List.map_map]
  apply List.map_congr_left
  intro e _
  show (if e.1 = k then (e.1, v) else e).1 = e.1
  by_cases he : e.1 = k
  · rw [if_pos he]
  · rw [if_neg he]

theorem imSet_length (m : List (Nat × α)) (k : Nat) (v : α) : (imSet m k v).length = m.length :=
  List.length_map ..

theorem imFind_imSet (m : List (Nat × α)) (k j : Nat) (v : α) :
    imFind (imSet m k v) j = if j = k then (if (imFind m k).isSome then some v else none) else imFind m j := by
  induction m with
  | nil => simp [imSet, imFind]
  | cons e m ih =>
    have hc : imSet (e :: m) k v = (if e.1 = k then (e.1, v) else e) :: imSet m k v := rfl
    rw [hc, imFind_cons, imFind_cons, imFind_cons, ih]
    have h1 : (if e.1 = k then (e.1, v) else e).1 = e.1 := by by_cases he : e.1 = k <;> simp [he]
    rw [h1]
    by_cases hj : e.1 = j
    · rw [if_pos hj]
      by_cases hjk : j = k
      · have he : e.1 = k := hj.trans hjk
        rw [if_pos hjk, if_pos he, if_pos he]
        rfl
      · rw [if_neg hjk, if_pos hj, if_neg (by rw [hj]; exact hjk)]
    · rw [if_neg hj]
      by_cases hjk : j = k
      · have he : ¬ e.1 = k := by rw [← hjk]; exact hj
        simp only [if_pos hjk, if_neg he]
      · rw [if_neg hjk, if_neg hjk, if_neg hj]

theorem Keys.imSet {m : List (Nat × α)} (hk : Keys m) (k : Nat) (v : α) : Keys (imSet m k v) := by
  unfold Keys; rw [imSet_keys]; exact hk

theorem mem_imSet {m : List (Nat × α)} {k : Nat} {v : α} {e : Nat × α} (h : e ∈ imSet m k v) :
    (e ∈ m ∧ e.1 ≠ k) ∨ (e.1 = k ∧ e.2 = v) := by
  obtain ⟨a, ha, rfl⟩ := List.mem_map.mp h
  by_cases hk : a.1 = k
  · rw [if_pos hk]; exact Or.inr ⟨hk, rfl⟩
  · rw [if_neg hk]; exact Or.inl ⟨ha, hk⟩

theorem imFind_append (m : List (Nat × α)) (e : Nat × α) (j : Nat) (hn : imFind m e.1 = none) :
    imFind (m ++ [e]) j = if j = e.1 then some e.2 else imFind m j := by
  induction m with
  | nil =>
    rw [List.nil_append, imFind_cons]
    by_cases h : e.1 = j
    · rw [if_pos h, if_pos h.symm]
    · rw [if_neg h, if_neg (fun h' => h h'.symm)]
  | cons a m ih =>
    rw [imFind_cons] at hn
    by_cases ha : a.1 = e.1
    · rw [if_pos ha] at hn; cases hn
    · rw [if_neg ha] at hn
      rw [List.cons_append, imFind_cons, imFind_cons, ih hn]
      by_cases h : a.1 = j
      · rw [if_pos h, if_pos h, if_neg (by rw [← h]; exact ha)]
      · rw [if_neg h, if_neg h]

theorem imFind_imInsert (m : List (Nat × α)) (k j : Nat) (v : α) :
    imFind (imInsert m k v) j = if j = k then some v else imFind m j := by
  unfold imInsert
  by_cases h : (imFind m k).isSome = true
  · rw [if_pos h, imFind_imSet, if_pos h]
  · rw [if_neg h]
    have hn : imFind m k = none := by
      cases hx : imFind m k with
      | none => rfl
      | some y => rw [hx] at h; exact absurd rfl h
    exact imFind_append m (k, v) j hn

theorem Keys.imInsert {m : List (Nat × α)} (hk : Keys m) (k : Nat) (v : α) : Keys (imInsert m k v) := by
  unfold Sched.imInsert
  by_cases h : (imFind m k).isSome = true
  · rw [if_pos h]; exact hk.imSet k v
  · rw [if_neg h]
    unfold Keys
    rw [List.map_append, List.nodup_append]
    refine ⟨hk, by simp, ?_⟩
    intro a ha b hb
    have hb : b = k := by simpa using hb
    intro hab
    rw [hab, hb] at ha
    exact h (imFind_isSome.mpr ha)

theorem mem_imInsert {m : List (Nat × α)} {k : Nat} {v : α} {e : Nat × α} (h : e ∈ imInsert m k v) :
    (e ∈ m ∧ e.1 ≠ k) ∨ (e.1 = k ∧ e.2 = v) := by
  unfold imInsert at h
  by_cases hs : (imFind m k).isSome = true
  · rw [if_pos hs] at h; exact mem_imSet h
  · rw [if_neg hs] at h
    rcases List.mem_append.mp h with h | h
    · refine Or.inl ⟨h, fun hk => hs (imFind_isSome.mpr ?_)⟩
      exact List.mem_map.mpr ⟨e, h, hk⟩
    · obtain rfl := List.mem_singleton.mp h
      exact Or.inr ⟨rfl, rfl⟩

theorem imFind_filter {m : List (Nat × α)} (hk : Keys m) (p : Nat × α → Bool) (j : Nat) :
    imFind (m.filter p) j = (imFind m j).filter (fun v => p (j, v)) := by
  induction m with
  | nil => rfl
  | cons e m ih =>
    have hk' := List.nodup_cons.mp (show (e.1 :: m.map (·.1)).Nodup from hk)
    rw [imFind_cons]
    by_cases hp : p e = true
    · rw [List.filter_cons_of_pos hp, imFind_cons]
      by_cases he : e.1 = j
      · rw [if_pos he, if_pos he]
        subst he
        show some e.2 = if p (e.1, e.2) = true then some e.2 else none
        rw [if_pos hp]
      · rw [if_neg he, if_neg he, ih hk'.2]
    · rw [List.filter_cons_of_neg hp, ih hk'.2]
      by_cases he : e.1 = j
      · rw [if_pos he]
        subst he
        have : imFind m e.1 = none := imFind_eq_none.mpr hk'.1
        rw [this]
        show none = if p (e.1, e.2) = true then some e.2 else none
        rw [if_neg hp]
      · rw [if_neg he]

theorem Keys.filter {m : List (Nat × α)} (hk : Keys m) (p : Nat × α → Bool) : Keys (m.filter p) := by
  unfold Keys at hk ⊢
  exact List.Nodup.sublist (List.Sublist.map _ List.filter_sublist) hk

theorem imFind_imErase {m : List (Nat × α)} (hk : Keys m) (k j : Nat) :
    imFind (imErase m k) j = if j = k then none else imFind m j := by
  unfold imErase
  rw [imFind_filter hk]
  by_cases h : j = k
  · rw [if_pos h]
    cases imFind m j with
    | none => rfl
    | some v =>
      show (if decide ((j, v).1 ≠ k) = true then some v else none) = none
      rw [if_neg (by simp [h])]
  · rw [if_neg h]
    cases imFind m j with
    | none => rfl
    | some v =>
      show (if decide ((j, v).1 ≠ k) = true then some v else none) = some v
      rw [if_pos (by simp [h])]

end im

/-! ### Buckets -/

/-- Sorted, without duplicates. -/
def Asc (l : List Nat) : Prop := l.Pairwise (· < ·)

theorem mem_sortedInsert {l : List Nat} {id x : Nat} : x ∈ sortedInsert l id ↔ x = id ∨ x ∈ l := by
  unfold sortedInsert
  rw [List.mem_append, List.mem_cons, List.mem_filter, List.mem_filter]
  constructor
  · rintro (⟨h, _⟩ | h | ⟨h, _⟩)
    · exact Or.inr h
    · exact Or.inl h
    · exact Or.inr h
  · rintro (h | h)
    · exact Or.inr (Or.inl h)
    · rcases Nat.lt_trichotomy x id with hx | hx | hx
      · exact Or.inl ⟨h, by simpa using hx⟩
      · exact Or.inr (Or.inl hx)
      · exact Or.inr (Or.inr ⟨h, by simpa using hx⟩)

theorem asc_sortedInsert {l : List Nat} (h : Asc l) (id : Nat) : Asc (sortedInsert l id) := by
  unfold Asc sortedInsert at *
  rw [List.pairwise_append, List.pairwise_cons]
  refine ⟨h.filter _, ⟨fun a ha => ?_, h.filter _⟩, fun a ha b hb => ?_⟩
  · exact of_decide_eq_true (List.mem_filter.mp ha).2
  · have h1 : a < id := of_decide_eq_true (List.mem_filter.mp ha).2
    rcases List.mem_cons.mp hb with rfl | hb
    · exact h1
    · have h2 : id < b := of_decide_eq_true (List.mem_filter.mp hb).2
      omega

theorem Asc.nodup {l : List Nat} (h : Asc l) : l.Nodup :=
  List.Pairwise.imp (fun h => Nat.ne_of_lt h) h

theorem asc_push {l : List Nat} (h : Asc l) {id last : Nat} (hl : l.getLast? = some last) (hlt : last < id) :
    Asc (l ++ [id]) := by
  unfold Asc at *
  rw [List.pairwise_append]
  refine ⟨h, by simp, fun a ha b hb => ?_⟩
  obtain rfl := List.mem_singleton.mp hb
  rcases List.eq_nil_or_concat l with rfl | ⟨l', x, rfl⟩
  · cases ha
  · rw [List.concat_eq_append] at *
    have hx : x = last := by simpa using hl
    rcases List.mem_append.mp ha with ha | ha
    · have := (List.pairwise_append.mp h).2.2 a ha x List.mem_cons_self
      omega
    · have : a = x := by simpa using ha
      omega

theorem Og.insert_ok {g g' : Og} {id : Nat} (h : Asc g.vec) (hi : g.insert id = .ok g') :
    Asc g'.vec ∧ (∀ x, x ∈ g'.vec ↔ x = id ∨ x ∈ g.vec) ∧ id ∉ g.vec := by
  unfold Og.insert at hi
  split at hi
  · cases hi
  · rename_i hn
    obtain rfl := Except.ok.inj hi
    exact ⟨asc_sortedInsert h id, fun x => mem_sortedInsert, hn⟩

theorem Og.insert_of {g : Og} {id : Nat} (hn : id ∉ g.vec) : ∃ g', g.insert id = .ok g' := by
  unfold Og.insert
  rw [if_neg hn]
  exact ⟨_, rfl⟩

theorem Og.add_ok {g g' : Og} {id : Nat} (h : Asc g.vec) (hi : g.add id = .ok g') :
    Asc g'.vec ∧ (∀ x, x ∈ g'.vec ↔ x = id ∨ x ∈ g.vec) := by
  unfold Og.add at hi
  split at hi
  · rename_i last hl
    split at hi
    · rename_i hlt
      obtain rfl := Except.ok.inj hi
      refine ⟨asc_push h hl hlt, fun x => ?_⟩
      show x ∈ g.vec ++ [id] ↔ _
      rw [List.mem_append, List.mem_singleton]
      exact Or.comm
    · exact ⟨(Og.insert_ok h hi).1, (Og.insert_ok h hi).2.1⟩
  · exact ⟨(Og.insert_ok h hi).1, (Og.insert_ok h hi).2.1⟩

theorem Og.add_of {g : Og} {id : Nat} (hn : id ∉ g.vec) : ∃ g', g.add id = .ok g' := by
  unfold Og.add
  split
  · split
    · exact ⟨_, rfl⟩
    · exact Og.insert_of hn
  · exact Og.insert_of hn

theorem Og.remove_ok {g g' : Og} {id : Nat} (h : Asc g.vec) (hi : g.remove id = .ok g') :
    Asc g'.vec ∧ (∀ x, x ∈ g'.vec ↔ x ∈ g.vec ∧ x ≠ id) ∧ id ∈ g.vec := by
  unfold Og.remove at hi
  split at hi
  · rename_i hn
    obtain rfl := Except.ok.inj hi
    refine ⟨List.Pairwise.filter _ h, fun x => ?_, hn⟩
    show x ∈ g.vec.filter _ ↔ _
    rw [List.mem_filter, decide_eq_true_eq]
  · cases hi

theorem Og.remove_of {g : Og} {id : Nat} (hn : id ∈ g.vec) : ∃ g', g.remove id = .ok g' := by
  unfold Og.remove
  rw [if_pos hn]
  exact ⟨_, rfl⟩

/-! ### Queues of a group -/

/-- The queues of a group are sorted, and an order has no empty bucket. -/
structure QOk (q : Queues) : Prop where
  sorted : SMap.Sorted q.ordered
  ne : ∀ e ∈ q.ordered, e.2.vec ≠ []
  asc : ∀ e ∈ q.ordered, Asc e.2.vec
  reg : Asc q.regular.vec

theorem QOk.nil : QOk {} :=
  ⟨SMap.sorted_nil, fun _ h => absurd h (List.not_mem_nil), fun _ h => absurd h (List.not_mem_nil),
    List.Pairwise.nil⟩

/-- The streams queued with an order. -/
def Queues.mem (q : Queues) (order : Option Nat) (id : Nat) : Prop := id ∈ (q.bucket order).vec

theorem Queues.not_mem_nil (o : Option Nat) (id : Nat) : ¬ ({} : Queues).mem o id := by
  cases o with
  | none => intro h; cases h
  | some o => intro h; cases h

theorem QOk.bucket {q : Queues} (h : QOk q) (o : Option Nat) : Asc (q.bucket o).vec := by
  cases o with
  | none => exact h.reg
  | some o =>
    show Asc ((SMap.find q.ordered o).getD {}).vec
    cases hf : SMap.find q.ordered o with
    | none => exact List.Pairwise.nil
    | some g => exact h.asc _ (h.sorted.find_eq_some.mp hf)

theorem SMap.find_insert' {β : Type} {m : SMap β} (h : SMap.Sorted m) (k j : Nat) (v : β) :
    SMap.find (SMap.insert m k v) j = if j = k then some v else SMap.find m j := by
  by_cases hj : j = k
  · rw [if_pos hj, hj]
    exact (h.insert k v).find_eq_some.mpr (SMap.mem_insert.mpr (Or.inl rfl))
  · rw [if_neg hj]
    cases hf : SMap.find m j with
    | none =>
      rw [SMap.find_eq_none] at hf ⊢
      intro e he
      rcases SMap.mem_insert.mp he with rfl | ⟨he, _⟩
      · exact fun h => hj h.symm
      · exact hf e he
    | some w =>
      rw [(h.insert k v).find_eq_some]
      exact SMap.mem_insert.mpr (Or.inr ⟨h.find_eq_some.mp hf, hj⟩)

theorem SMap.find_erase' {β : Type} {m : SMap β} (h : SMap.Sorted m) (k j : Nat) :
    SMap.find (SMap.erase m k) j = if j = k then none else SMap.find m j := by
  by_cases hj : j = k
  · rw [if_pos hj, SMap.find_eq_none]
    intro e he
    rw [hj]
    exact (SMap.mem_erase.mp he).2
  · rw [if_neg hj]
    cases hf : SMap.find m j with
    | none =>
      rw [SMap.find_eq_none] at hf ⊢
      exact fun e he => hf e (SMap.mem_erase.mp he).1
    | some w =>
      rw [(h.erase k).find_eq_some]
      exact SMap.mem_erase.mpr ⟨h.find_eq_some.mp hf, hj⟩

theorem Queues.bucket_setBucket {q : Queues} (h : QOk q) (g : Og) (o o' : Option Nat) :
    (q.setBucket g o).bucket o' = if o' = o then g else q.bucket o' := by
  cases o with
  | none =>
    cases o' with
    | none => rfl
    | some o' => rw [if_neg (by simp)]; rfl
  | some o =>
    cases o' with
    | none => rw [if_neg (by simp)]; rfl
    | some o' =>
      show (SMap.find (SMap.insert q.ordered o g) o').getD {} = _
      rw [SMap.find_insert' h.sorted]
      by_cases ho : o' = o
      · rw [if_pos ho, if_pos (by rw [ho])]; rfl
      · rw [if_neg ho, if_neg (fun h => ho (Option.some.inj h))]; rfl

theorem QOk.setBucket {q : Queues} (h : QOk q) {g : Og} (ha : Asc g.vec) (hne : g.vec ≠ []) (o : Option Nat) :
    QOk (q.setBucket g o) := by
  cases o with
  | none => exact ⟨h.sorted, h.ne, h.asc, ha⟩
  | some o =>
    refine ⟨h.sorted.insert o g, fun e he => ?_, fun e he => ?_, h.reg⟩
    · rcases SMap.mem_insert.mp he with rfl | ⟨he, _⟩
      · exact hne
      · exact h.ne e he
    · rcases SMap.mem_insert.mp he with rfl | ⟨he, _⟩
      · exact ha
      · exact h.asc e he

theorem Queues.isEmpty_iff {q : Queues} (h : QOk q) : q.isEmpty = true ↔ ∀ o id, ¬ q.mem o id := by
  unfold Queues.isEmpty
  rw [decide_eq_true_eq]
  constructor
  · rintro ⟨h1, h2⟩ o id hm
    cases o with
    | none => unfold Queues.mem Queues.bucket at hm; rw [h1] at hm; cases hm
    | some o => unfold Queues.mem Queues.bucket at hm; rw [h2] at hm; cases hm
  · intro hm
    constructor
    · cases hv : q.regular.vec with
      | nil => rfl
      | cons a l => exact absurd (show q.mem none a from by unfold Queues.mem Queues.bucket; rw [hv]; exact List.mem_cons_self) (hm none a)
    · cases hv : q.ordered with
      | nil => rfl
      | cons e l =>
        have he : e ∈ q.ordered := by rw [hv]; exact List.mem_cons_self
        cases hg : e.2.vec with
        | nil => exact absurd hg (h.ne e he)
        | cons a l' =>
          refine absurd (show q.mem (some e.1) a from ?_) (hm (some e.1) a)
          unfold Queues.mem Queues.bucket
          have : SMap.find q.ordered e.1 = some e.2 := h.sorted.find_eq_some.mpr he
          dsimp only
          rw [this]
          show a ∈ e.2.vec
          rw [hg]
          exact List.mem_cons_self

theorem Queues.removeStream_ok {q q' : Queues} {id : Nat} {o : Option Nat} (h : QOk q)
    (hr : q.removeStream id o = .ok q') (hm : q.mem o id) :
    QOk q' ∧ ∀ o' x, q'.mem o' x ↔ q.mem o' x ∧ ¬ (o' = o ∧ x = id) := by
  cases o with
  | none =>
    unfold Queues.removeStream at hr
    dsimp only at hr
    split at hr
    · cases hr
    · rename_i g hg
      obtain rfl := Except.ok.inj hr
      obtain ⟨h1, h2, h3⟩ := Og.remove_ok h.reg hg
      refine ⟨⟨h.sorted, h.ne, h.asc, h1⟩, fun o' x => ?_⟩
      cases o' with
      | none =>
        show x ∈ g.vec ↔ x ∈ q.regular.vec ∧ _
        rw [h2]
        simp
      | some o' =>
        show q.mem (some o') x ↔ _
        simp
  | some o =>
    unfold Queues.removeStream at hr
    dsimp only at hr
    cases hf : SMap.find q.ordered o with
    | none => unfold Queues.mem Queues.bucket at hm; dsimp only at hm; rw [hf] at hm; cases hm
    | some g =>
      rw [hf] at hr
      dsimp only at hr
      have hgm := h.sorted.find_eq_some.mp hf
      split at hr
      · cases hr
      · rename_i g' hg
        obtain ⟨h1, h2, h3⟩ := Og.remove_ok (h.asc _ hgm) hg
        split at hr
        · rename_i hnil
          obtain rfl := Except.ok.inj hr
          refine ⟨⟨h.sorted.erase o, fun e he => h.ne e (SMap.mem_erase.mp he).1,
            fun e he => h.asc e (SMap.mem_erase.mp he).1, h.reg⟩, fun o' x => ?_⟩
          cases o' with
          | none => show q.mem none x ↔ _; simp
          | some o' =>
            show x ∈ ((SMap.find (SMap.erase q.ordered o) o').getD {}).vec ↔ x ∈ ((SMap.find q.ordered o').getD {}).vec ∧ _
            rw [SMap.find_erase' h.sorted]
            by_cases ho : o' = o
            · rw [if_pos ho, ho, hf]
              constructor
              · intro hx; cases hx
              · rintro ⟨hx, hn⟩
                exfalso
                have hxi : x ≠ id := fun hxi => hn ⟨rfl, hxi⟩
                have : x ∈ g'.vec := (h2 x).mpr ⟨hx, hxi⟩
                rw [hnil] at this
                cases this
            · rw [if_neg ho]
              constructor
              · exact fun hx => ⟨hx, fun hh => ho (Option.some.inj hh.1)⟩
              · exact fun hx => hx.1
        · rename_i hnil
          obtain rfl := Except.ok.inj hr
          have hs : ({ q with ordered := SMap.insert q.ordered o g' } : Queues) = q.setBucket g' (some o) := rfl
          rw [hs]
          refine ⟨h.setBucket h1 hnil _, fun o' x => ?_⟩
          unfold Queues.mem
          rw [Queues.bucket_setBucket h]
          by_cases ho : o' = some o
          · rw [if_pos ho, ho, h2]
            show _ ↔ x ∈ ((SMap.find q.ordered o).getD {}).vec ∧ _
            rw [hf]
            simp
          · rw [if_neg ho]
            constructor
            · exact fun hx => ⟨hx, fun hh => ho hh.1⟩
            · exact fun hx => hx.1

theorem Queues.removeStream_of {q : Queues} {id : Nat} {o : Option Nat} (hm : q.mem o id) :
    ∃ q', q.removeStream id o = .ok q' := by
  cases o with
  | none =>
    obtain ⟨g, hg⟩ := Og.remove_of (show id ∈ q.regular.vec from hm)
    unfold Queues.removeStream
    dsimp only
    rw [hg]
    exact ⟨_, rfl⟩
  | some o =>
    unfold Queues.removeStream
    dsimp only
    cases hf : SMap.find q.ordered o with
    | none => exact ⟨_, rfl⟩
    | some g =>
      dsimp only
      have : id ∈ g.vec := by
        unfold Queues.mem Queues.bucket at hm
        dsimp only at hm
        rw [hf] at hm
        exact hm
      obtain ⟨g', hg⟩ := Og.remove_of this
      rw [hg]
      dsimp only
      by_cases hn : g'.vec = []
      · rw [if_pos hn]; exact ⟨_, rfl⟩
      · rw [if_neg hn]; exact ⟨_, rfl⟩

end Neqo.Sched
