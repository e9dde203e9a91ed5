import Verif.Path.Spec

/-!
What each operation on the paths does to them.
-/

namespace Neqo.Path

/-- The result satisfies `Q`, or is an error that is not a panic. -/
def Good {α : Type} (r : Except Err α) (Q : α → Prop) : Prop :=
  (∀ a, r = .ok a → Q a) ∧ r ≠ .error .panic

theorem Good.ok {α : Type} {a : α} {Q : α → Prop} (h : Q a) : Good (.ok a) Q :=
  ⟨fun _ he => Except.ok.inj he ▸ h, (fun he => by cases he)⟩

theorem Good.err {α : Type} {e : Err} {Q : α → Prop} (h : e ≠ .panic) : Good (.error e) Q :=
  ⟨(fun _ he => by cases he), fun he => h (Except.error.inj he)⟩

theorem Good.bind {α β : Type} {r : Except Err α} {f : α → Except Err β} {P : α → Prop}
    {Q : β → Prop} (h : Good r P) (hf : ∀ a, P a → Good (f a) Q) : Good (r >>= f) Q := by
  cases r with
  | error e => exact ⟨(fun _ he => by cases he), fun he => h.2 (by cases he; rfl)⟩
  | ok a => exact hf a (h.1 a rfl)

theorem Good.mono {α : Type} {r : Except Err α} {P Q : α → Prop} (h : Good r P)
    (hq : ∀ a, P a → Q a) : Good r Q := ⟨fun a he => hq a (h.1 a he), h.2⟩

/-- A path but for its connection ID and whether it is primary. -/
def core (p : Path) : Path := { p with cid := none, primary := false }

/-- What is known of each path object. -/
def PathOk (p : Path) : Prop :=
  (∀ n, p.st = .needed n → n < 3) ∧ (∀ n d m s, p.st = .probing n d m s → n < 3) ∧
  (p.st = .valid → p.validated.isSome = true)

theorem PathOk.core {p q : Path} (h : PathOk p) (hc : core q = core p) : PathOk q := by
  have h1 : (Neqo.Path.core q).st = (Neqo.Path.core p).st := by rw [hc]
  have h2 : (Neqo.Path.core q).validated = (Neqo.Path.core p).validated := by rw [hc]
  have h1 : q.st = p.st := h1
  have h2 : q.validated = p.validated := h2
  unfold PathOk
  rw [h1, h2]; exact h

/-- The sequence numbers of the connection IDs in use. -/
def inUse (c : Conn) : List Nat := c.paths.flatMap (fun i => (c.heap i).retired)

/-- All sequence numbers the connection holds. -/
def held (c : Conn) : List Nat := c.store.map (·.seq) ++ inUse c ++ c.toRetire

/-- What always holds. -/
structure Inv (c : Conn) : Prop where
  nodup : c.paths.Nodup
  len : c.paths.length ≤ maxPaths
  lt : ∀ i ∈ c.paths, i < c.next
  prim : ∀ p l, c.paths = p :: l →
    c.primary = some p ∧ (c.heap p).primary = true ∧ ∀ q ∈ l, (c.heap q).primary = false
  primNone : c.paths = [] → c.primary = none
  cids : ∀ i ∈ c.paths, (c.heap i).cid.isSome = true
  ok : ∀ i, PathOk (c.heap i)
  storeNe : ∀ e ∈ c.store, e.cid ≠ [] ∧ e.seq < 2 ^ 62

theorem Inv.primary_mem {c : Conn} (h : Inv c) {p : Nat} (hp : c.primary = some p) :
    ∃ l, c.paths = p :: l := by
  cases hl : c.paths with
  | nil => rw [h.primNone hl] at hp; cases hp
  | cons a l =>
    have := (h.prim a l hl).1
    rw [hp] at this
    obtain rfl := Option.some.inj this
    exact ⟨l, rfl⟩

/-- The object can be made permanent. -/
def Avail (c : Conn) (i : Nat) : Prop := i < c.next ∧ (i ∉ c.paths → (c.heap i).primary = false)

/-- What an operation leaves alone: all of the paths but connection IDs and which is primary. -/
structure Frame (c c' : Conn) : Prop where
  core : ∀ j, core (c'.heap j) = core (c.heap j)
  next : c'.next = c.next
  client : c'.client = c.client
  connected : c'.connected = c.connected

theorem Frame.refl (c : Conn) : Frame c c := ⟨fun _ => rfl, rfl, rfl, rfl⟩

theorem Frame.trans {a b c : Conn} (h : Frame a b) (h' : Frame b c) : Frame a c :=
  ⟨fun j => (h'.core j).trans (h.core j), h'.next.trans h.next, h'.client.trans h.client,
    h'.connected.trans h.connected⟩

theorem retired_of_cid {p q : Path} (h : p.cid = q.cid) : p.retired = q.retired := by
  unfold Path.retired; rw [h]

theorem upd_same (h : Nat → Path) (i : Nat) (p : Path) : upd h i p i = p := by
  unfold upd; rw [if_pos rfl]

theorem upd_other (h : Nat → Path) {i j : Nat} (p : Path) (hne : j ≠ i) : upd h i p j = h j := by
  unfold upd; rw [if_neg hne]

/-! ### `select_primary` -/

theorem swapFront_perm {i : Nat} {l : List Nat} (h : i ∈ l) (hn : l.Nodup) :
    (swapFront i l).Perm l := by
  cases l with
  | nil => cases h
  | cons a l =>
    rw [swapFront]
    split
    · exact List.Perm.refl _
    · rename_i hne
      have hi : i ∈ l := by
        rcases List.mem_cons.mp h with rfl | h
        · exact absurd rfl hne
        · exact h
      rw [List.nodup_cons] at hn
      obtain ⟨s, t, rfl⟩ := List.append_of_mem hi
      have hns := hn.2
      rw [List.nodup_append] at hns
      have h1 : i ∉ s := fun h => hns.2.2 i h i List.mem_cons_self rfl
      have h2 : i ∉ t := (List.nodup_cons.mp hns.2.1).1
      have m1 : s.map (fun x => if x = i then a else x) = s := by
        conv => rhs; rw [← List.map_id s]
        apply List.map_congr_left
        intro x hx
        rw [if_neg (fun h : x = i => h1 (h ▸ hx))]; rfl
      have m2 : t.map (fun x => if x = i then a else x) = t := by
        conv => rhs; rw [← List.map_id t]
        apply List.map_congr_left
        intro x hx
        rw [if_neg (fun h : x = i => h2 (h ▸ hx))]; rfl
      rw [List.map_append, List.map_cons, m1, m2, if_pos rfl]
      have p1 : (i :: (s ++ a :: t)).Perm (i :: a :: (s ++ t)) :=
        List.Perm.cons i List.perm_middle
      have p2 : (a :: (s ++ i :: t)).Perm (a :: i :: (s ++ t)) :=
        List.Perm.cons a List.perm_middle
      exact p1.trans ((List.Perm.swap a i _).trans p2.symm)

theorem swapFront_head {i : Nat} {l : List Nat} (h : i ∈ l) : ∃ t, swapFront i l = i :: t := by
  cases l with
  | nil => cases h
  | cons a l =>
    rw [swapFront]
    split
    · rename_i h; exact ⟨l, by rw [h]⟩
    · exact ⟨_, rfl⟩

/-- What holds when a path is to be selected: as `Inv`, but the primary path may be gone. -/
structure Pre (c : Conn) : Prop where
  nodup : c.paths.Nodup
  len : c.paths.length ≤ maxPaths
  lt : ∀ i ∈ c.paths, i < c.next
  prim : ∀ q ∈ c.paths, (c.heap q).primary = true → c.primary = some q
  old : ∀ q, c.primary = some q → q ∈ c.paths
  cids : ∀ i ∈ c.paths, (c.heap i).cid.isSome = true
  ok : ∀ i, PathOk (c.heap i)
  storeNe : ∀ e ∈ c.store, e.cid ≠ [] ∧ e.seq < 2 ^ 62

theorem Inv.pre {c : Conn} (h : Inv c) : Pre c := by
  refine ⟨h.nodup, h.len, h.lt, ?_, ?_, h.cids, h.ok, h.storeNe⟩
  · intro q hq hp
    cases hl : c.paths with
    | nil => rw [hl] at hq; cases hq
    | cons a l =>
      obtain ⟨h1, h2, h3⟩ := h.prim a l hl
      rw [hl] at hq
      rcases List.mem_cons.mp hq with rfl | hq
      · exact h1
      · rw [h3 q hq] at hp; cases hp
  · intro q hq
    obtain ⟨l, hl⟩ := h.primary_mem hq
    rw [hl]; exact List.mem_cons_self

theorem Conn.selectPrimary_good {c : Conn} (h : Pre c) {i : Nat} (hi : i ∈ c.paths) :
    Good (c.selectPrimary i) (fun c' => Inv c' ∧ Frame c c' ∧ c'.paths.Perm c.paths ∧
      c'.primary = some i ∧ c'.store = c.store ∧ c'.toRetire = c.toRetire ∧
      c'.target = c.target ∧ (∀ j, (c'.heap j).cid = (c.heap j).cid) ∧
      ∀ j, (c.heap j).primary = false → j ∉ c.paths → (c'.heap j).primary = false) := by
  unfold Conn.selectPrimary
  apply Good.bind (P := fun c1 => c1 = { c with heap := c1.heap } ∧
    (∀ j, core (c1.heap j) = core (c.heap j)) ∧ (∀ j, (c1.heap j).cid = (c.heap j).cid) ∧
    (∀ q ∈ c.paths, (c1.heap q).primary = false) ∧
    ∀ j, (c.heap j).primary = false → (c1.heap j).primary = false)
  · unfold Conn.clearOld
    split
    · rename_i hn
      refine Good.ok ⟨rfl, fun _ => rfl, fun _ => rfl, ?_, fun _ h => h⟩
      intro q hq
      cases hb : (c.heap q).primary with
      | false => rfl
      | true => have := h.prim q hq hb; rw [hn] at this; cases this
    · rename_i o ho
      have hcid := h.cids o (h.old o ho)
      rw [if_neg (by rw [Option.isNone_iff_eq_none]; intro hn; rw [hn] at hcid; cases hcid)]
      refine Good.ok ⟨rfl, ?_, ?_, ?_, ?_⟩
      · intro j
        show core (upd c.heap o _ j) = _
        by_cases hj : j = o
        · rw [hj, upd_same]; rfl
        · rw [upd_other _ _ hj]
      · intro j
        show (upd c.heap o _ j).cid = _
        by_cases hj : j = o
        · rw [hj, upd_same]
        · rw [upd_other _ _ hj]
      · intro q hq
        show (upd c.heap o _ q).primary = false
        by_cases hj : q = o
        · rw [hj, upd_same]
        · rw [upd_other _ _ hj]
          cases hb : (c.heap q).primary with
          | false => rfl
          | true =>
            have := h.prim q hq hb
            rw [ho] at this
            exact absurd (Option.some.inj this).symm hj
      · intro j hj
        show (upd c.heap o _ j).primary = false
        by_cases hjo : j = o
        · rw [hjo, upd_same]
        · rw [upd_other _ _ hjo]; exact hj
  · intro c1 ⟨heq, hcore, hcid, hprim, hoff⟩
    obtain ⟨heap, rfl⟩ : ∃ heap, c1 = { c with heap := heap } := ⟨_, heq⟩
    simp only at hcore hcid hprim hoff ⊢
    rw [if_pos (by rw [List.contains_iff_mem]; exact hi)]
    have hci := h.cids i hi
    rw [if_neg (by
      rw [hcid i, Option.isNone_iff_eq_none]; intro hn; rw [hn] at hci; cases hci)]
    have hperm := swapFront_perm hi h.nodup
    obtain ⟨t, ht⟩ := swapFront_head hi
    refine Good.ok ⟨?_, ?_, hperm, rfl, rfl, rfl, rfl, ?_, ?_⟩
    · constructor
      · exact hperm.nodup_iff.mpr h.nodup
      · show (swapFront i c.paths).length ≤ _
        rw [hperm.length_eq]; exact h.len
      · intro j hj
        exact h.lt j (hperm.mem_iff.mp hj)
      · intro p l hl
        have hl : swapFront i c.paths = p :: l := hl
        rw [ht] at hl
        obtain ⟨rfl, rfl⟩ := List.cons.inj hl
        refine ⟨rfl, ?_, ?_⟩
        · show (upd heap i _ i).primary = true
          rw [upd_same]
        · intro q hq
          show (upd heap i _ q).primary = false
          have hnd := hperm.nodup_iff.mpr h.nodup
          rw [ht, List.nodup_cons] at hnd
          have hne : q ≠ i := fun he => hnd.1 (he ▸ hq)
          rw [upd_other _ _ hne]
          apply hprim
          apply hperm.mem_iff.mp
          rw [ht]; exact List.mem_cons_of_mem _ hq
      · intro hn
        have hn : swapFront i c.paths = [] := hn
        rw [ht] at hn; cases hn
      · intro j hj
        show (upd heap i _ j).cid.isSome = true
        have hc : (upd heap i { heap i with primary := true } j).cid = (c.heap j).cid := by
          by_cases hj : j = i
          · rw [hj, upd_same]; exact hcid i
          · rw [upd_other _ _ hj]; exact hcid j
        rw [hc]
        exact h.cids j (hperm.mem_iff.mp hj)
      · intro j
        refine (h.ok j).core ?_
        show core (upd heap i _ j) = _
        by_cases hj : j = i
        · rw [hj, upd_same]; exact hcore i
        · rw [upd_other _ _ hj]; exact hcore j
      · exact h.storeNe
    · refine ⟨fun j => ?_, rfl, rfl, rfl⟩
      show core (upd heap i _ j) = _
      by_cases hj : j = i
      · rw [hj, upd_same]; exact hcore i
      · rw [upd_other _ _ hj]; exact hcore j
    · intro j
      show (upd heap i _ j).cid = _
      by_cases hj : j = i
      · rw [hj, upd_same]; exact hcid i
      · rw [upd_other _ _ hj]; exact hcid j
    · intro j hj hn
      show (upd heap i _ j).primary = false
      rw [upd_other _ _ (fun he : j = i => hn (he ▸ hi))]
      exact hoff j hj

/-- What is held does not change when only the order of the paths does. -/
theorem held_perm {c c' : Conn} (hs : c'.store = c.store) (hr : c'.toRetire = c.toRetire)
    (hp : c'.paths.Perm c.paths) (hc : ∀ j, (c'.heap j).cid = (c.heap j).cid) :
    (held c').Perm (held c) := by
  unfold held inUse
  rw [hs, hr]
  apply List.Perm.append_right
  apply List.Perm.append_left
  have : (fun i => (c'.heap i).retired) = (fun i => (c.heap i).retired) := by
    funext j; exact retired_of_cid (hc j)
  rw [this]
  exact List.Perm.flatMap_right _ hp

/-! ### `make_permanent` -/

theorem Conn.evict_good {c : Conn} (h : Inv c) :
    Good c.evict (fun c' => Inv c' ∧ Frame c c' ∧ c'.heap = c.heap ∧ c'.paths.length < maxPaths ∧
      (∀ j ∈ c'.paths, j ∈ c.paths) ∧ c'.primary = c.primary ∧ c'.store = c.store ∧
      (held c').Perm (held c) ∧ c.toRetire <+: c'.toRetire ∧
      (c'.paths = [] ↔ c.paths = [])) := by
  unfold Conn.evict
  by_cases hl : maxPaths ≤ c.paths.length
  · rw [if_pos hl, if_neg (by have := h.len; omega)]
    match hp : c.paths with
    | [] => rw [hp] at hl; simp [maxPaths] at hl
    | [_] => rw [hp] at hl; simp [maxPaths] at hl
    | a :: b :: l =>
      have hprim := h.prim a (b :: l) hp
      refine Good.ok ⟨?_, ⟨fun _ => rfl, rfl, rfl, rfl⟩, rfl, ?_, ?_, rfl, rfl, ?_, ?_, ?_⟩
      · have hnd := h.nodup
        rw [hp] at hnd
        constructor
        · show (a :: l).Nodup
          rw [List.nodup_cons, List.nodup_cons] at hnd
          rw [List.nodup_cons]
          exact ⟨fun h => hnd.1 (List.mem_cons_of_mem _ h), hnd.2.2⟩
        · have := h.len
          rw [hp] at this
          simp only [List.length_cons] at this ⊢
          omega
        · intro i hi
          apply h.lt
          rw [hp]
          rcases List.mem_cons.mp hi with rfl | hi
          · exact List.mem_cons_self
          · exact List.mem_cons_of_mem _ (List.mem_cons_of_mem _ hi)
        · intro p q hq
          obtain ⟨rfl, rfl⟩ := List.cons.inj hq
          exact ⟨hprim.1, hprim.2.1, fun q hq => hprim.2.2 q (List.mem_cons_of_mem _ hq)⟩
        · intro hn; cases hn
        · intro i hi
          apply h.cids
          rw [hp]
          rcases List.mem_cons.mp hi with rfl | hi
          · exact List.mem_cons_self
          · exact List.mem_cons_of_mem _ (List.mem_cons_of_mem _ hi)
        · exact h.ok
        · exact h.storeNe
      · have := h.len
        rw [hp] at this
        simp only [List.length_cons] at this ⊢
        omega
      · intro j hj
        rcases List.mem_cons.mp hj with rfl | hj
        · exact List.mem_cons_self
        · exact List.mem_cons_of_mem _ (List.mem_cons_of_mem _ hj)
      · unfold held inUse
        rw [hp]
        simp only [List.flatMap_cons, List.append_assoc]
        apply List.Perm.append_left
        apply List.Perm.append_left
        rw [← List.append_assoc, ← List.append_assoc (c.heap b).retired]
        refine List.perm_append_comm.trans ?_
        rw [List.append_assoc]
      · exact ⟨_, rfl⟩
      · constructor <;> intro hx <;> cases hx
  · rw [if_neg hl]
    exact Good.ok ⟨h, Frame.refl c, rfl, by omega, fun _ hj => hj, rfl, rfl, List.Perm.refl _,
      List.prefix_refl _, Iff.rfl⟩

/-- The sequence number to be retired with this connection ID. -/
def Entry.seqs (e : Entry) : List Nat := if e.cid = [] then [] else [e.seq]

theorem Conn.makePermanent_good {c : Conn} (h : Inv c) {i : Nat} (ha : Avail c i)
    (ht : c.isTemporary i = true) (e : Entry) :
    Good (c.makePermanent i e) (fun c' => Inv c' ∧ Frame c c' ∧ i ∈ c'.paths ∧
      (∀ j ∈ c'.paths, j = i ∨ j ∈ c.paths) ∧
      c'.store = c.store ∧ (held c').Perm (e.seqs ++ held c) ∧ c.toRetire <+: c'.toRetire ∧
      (c'.heap i).cid = some e ∧ (c.paths ≠ [] → c'.primary = c.primary)) := by
  have hni : i ∉ c.paths := by
    intro hi
    have := h.cids i hi
    unfold Conn.isTemporary at ht
    rw [Bool.or_eq_true, Option.isNone_iff_eq_none, Bool.not_eq_true'] at ht
    rcases ht with ht | ht
    · rw [ht] at this; cases this
    · rw [← Bool.not_eq_true, List.contains_iff_mem] at ht; exact ht hi
  unfold Conn.makePermanent
  rw [if_neg (by rw [ht]; simp)]
  refine Good.bind (Conn.evict_good h) ?_
  intro c1 ⟨h1, f1, hheap, hlen, hsub, hprim, hst, hheld, hpre, hnil⟩
  have hni1 : i ∉ c1.paths := fun hi => hni (hsub i hi)
  have hip : (c1.heap i).primary = false := by rw [hheap]; exact ha.2 hni
  -- The state before a primary path is selected.
  let c2 : Conn := { c1.modify i (fun p => { p with cid := some e }) with paths := c1.paths ++ [i] }
  have hcid2 : ∀ j, j ≠ i → c2.heap j = c1.heap j := fun j hj => upd_other _ _ hj
  have hcidi : (c2.heap i).cid = some e := by
    show (upd c1.heap i _ i).cid = _; rw [upd_same]
  have hcore2 : ∀ j, core (c2.heap j) = core (c.heap j) := by
    intro j
    by_cases hj : j = i
    · subst hj
      show core (upd c1.heap j _ j) = _
      rw [upd_same, ← f1.core j]; rfl
    · rw [hcid2 j hj]; exact f1.core j
  have hprim2 : ∀ j, (c2.heap j).primary = (c1.heap j).primary := by
    intro j
    by_cases hj : j = i
    · subst hj
      show (upd c1.heap j _ j).primary = _
      rw [upd_same]
    · rw [hcid2 j hj]
  have hp2 : Pre c2 := by
    have hp := h1.pre
    refine ⟨?_, ?_, ?_, ?_, ?_, ?_, fun j => (h.ok j).core (hcore2 j), h1.storeNe⟩
    · show (c1.paths ++ [i]).Nodup
      rw [List.nodup_append]
      refine ⟨h1.nodup, by simp, ?_⟩
      intro a ha b hb
      rw [List.mem_singleton] at hb
      rintro rfl
      exact hni1 (hb ▸ ha)
    · show (c1.paths ++ [i]).length ≤ _
      rw [List.length_append, List.length_singleton]; omega
    · intro j hj
      rcases List.mem_append.mp hj with hj | hj
      · exact h1.lt j hj
      · rw [List.mem_singleton] at hj
        show j < c1.next
        rw [hj, f1.next]; exact ha.1
    · intro q hq hqp
      rw [hprim2] at hqp
      rcases List.mem_append.mp hq with hq | hq
      · exact hp.prim q hq hqp
      · rw [List.mem_singleton] at hq
        rw [hq, hip] at hqp; cases hqp
    · intro q hq
      exact List.mem_append.mpr (Or.inl (hp.old q hq))
    · intro j hj
      by_cases hji : j = i
      · rw [hji, hcidi]; rfl
      · rw [hcid2 j hji]
        rcases List.mem_append.mp hj with hj | hj
        · exact h1.cids j hj
        · exact absurd (List.mem_singleton.mp hj) hji
  have hf2 : Frame c c2 := ⟨hcore2, f1.next, f1.client, f1.connected⟩
  have hheld2 : (held c2).Perm (e.seqs ++ held c) := by
    refine List.Perm.trans ?_ (hheld.append_left e.seqs)
    show (c1.store.map (·.seq) ++ (c1.paths ++ [i]).flatMap (fun j => (c2.heap j).retired) ++
      c1.toRetire).Perm _
    rw [List.flatMap_append]
    have e1 : c1.paths.flatMap (fun j => (c2.heap j).retired) = inUse c1 := by
      unfold inUse
      rw [List.flatMap, List.flatMap]
      congr 1
      apply List.map_congr_left
      intro j hj
      rw [hcid2 j (fun he => hni1 (he ▸ hj))]
    have e2 : [i].flatMap (fun j => (c2.heap j).retired) = e.seqs := by
      rw [List.flatMap_singleton]
      unfold Path.retired
      rw [hcidi]; rfl
    rw [e1, e2]
    unfold held
    rw [← List.append_assoc (List.map _ _)]
    refine (List.Perm.append_right _ List.perm_append_comm).trans ?_
    rw [List.append_assoc]
  have hmem2 : ∀ j ∈ c2.paths, j = i ∨ j ∈ c.paths := by
    intro j hj
    rcases List.mem_append.mp hj with hj | hj
    · exact Or.inr (hsub j hj)
    · exact Or.inl (List.mem_singleton.mp hj)
  show Good (match c2.primary with
    | none => c2.selectPrimary i
    | some _ => .ok c2) _
  split
  · rename_i hn
    have hi2 : i ∈ c2.paths := List.mem_append.mpr (Or.inr (List.mem_singleton.mpr rfl))
    refine (Conn.selectPrimary_good hp2 hi2).mono ?_
    intro c3 ⟨h3, f3, hperm3, hpr3, hst3, hret3, _, hcid3, _⟩
    refine ⟨h3, hf2.trans f3, hperm3.mem_iff.mpr hi2, fun j hj => hmem2 j (hperm3.mem_iff.mp hj),
      hst3.trans hst, (held_perm hst3 hret3 hperm3 hcid3).trans hheld2, ?_, ?_, ?_⟩
    · rw [hret3]; exact hpre
    · rw [hcid3]; exact hcidi
    · intro hne
      cases hl : c.paths with
      | nil => exact absurd hl hne
      | cons a l =>
        have := (h.prim a l hl).1
        have hn : c1.primary = none := hn
        rw [hprim, this] at hn; cases hn
  · rename_i o ho
    have ho : c1.primary = some o := ho
    obtain ⟨l, hl⟩ := h1.primary_mem ho
    refine Good.ok ⟨?_, hf2, List.mem_append.mpr (Or.inr (List.mem_singleton.mpr rfl)), hmem2, hst,
      hheld2, hpre, hcidi, fun _ => hprim⟩
    refine ⟨hp2.nodup, hp2.len, hp2.lt, ?_, ?_, hp2.cids, hp2.ok, hp2.storeNe⟩
    · intro p r hpr
      have hpr : c1.paths ++ [i] = p :: r := hpr
      rw [hl] at hpr
      obtain ⟨rfl, rfl⟩ := List.cons.inj hpr
      have hq := h1.prim o l hl
      refine ⟨ho, (hprim2 _).trans hq.2.1, ?_⟩
      intro q hqm
      rw [hprim2]
      rcases List.mem_append.mp hqm with hqm | hqm
      · exact hq.2.2 q hqm
      · rw [List.mem_singleton.mp hqm]; exact hip
    · intro hn
      have hn : c1.paths ++ [i] = [] := hn
      exact absurd hn (by simp)

/-! ### `ensure_permanent` -/

theorem Conn.ensurePermanent_good {c : Conn} (h : Inv c) {i : Nat} (ha : Avail c i) :
    Good (c.ensurePermanent i) (fun c' => Inv c' ∧ Frame c c' ∧ i ∈ c'.paths ∧
      (∀ j ∈ c'.paths, j = i ∨ j ∈ c.paths) ∧
      (held c').Perm (held c) ∧ c.toRetire <+: c'.toRetire ∧
      (c.paths ≠ [] → c'.primary = c.primary) ∧ c'.store.length ≤ c.store.length) := by
  unfold Conn.ensurePermanent
  by_cases ht : c.isTemporary i = true
  · rw [if_pos ht]
    split
    · rename_i e rest hst
      have h' : Inv { c with store := rest } :=
        { h with storeNe := fun x hx => h.storeNe x (by rw [hst]; exact List.mem_cons_of_mem _ hx) }
      refine (Conn.makePermanent_good h' ha ht e).mono ?_
      intro c' ⟨h1, f1, hi, hsub, hs, hheld, hpre, _, hpr⟩
      refine ⟨h1, ⟨f1.core, f1.next, f1.client, f1.connected⟩, hi, hsub, ?_, hpre, hpr,
        by rw [hs, hst, List.length_cons]; exact Nat.le_succ _⟩
      have he : e.cid ≠ [] := (h.storeNe e (by rw [hst]; exact List.mem_cons_self)).1
      refine hheld.trans ?_
      show (e.seqs ++ (rest.map (·.seq) ++ inUse c ++ c.toRetire)).Perm
        (c.store.map (·.seq) ++ inUse c ++ c.toRetire)
      rw [hst]
      unfold Entry.seqs
      rw [if_neg he]
      exact List.Perm.refl _
    · rename_i hst
      have emp : Good (c.makePermanent i .empty) (fun c' => Inv c' ∧ Frame c c' ∧ i ∈ c'.paths ∧
          (∀ j ∈ c'.paths, j = i ∨ j ∈ c.paths) ∧
          (held c').Perm (held c) ∧ c.toRetire <+: c'.toRetire ∧
          (c.paths ≠ [] → c'.primary = c.primary) ∧ c'.store.length ≤ c.store.length) := by
        refine (Conn.makePermanent_good h ha ht .empty).mono ?_
        intro c' ⟨h1, f1, hi, hsub, hs, hheld, hpre, _, hpr⟩
        exact ⟨h1, f1, hi, hsub, hheld, hpre, hpr, Nat.le_of_eq (by rw [hs])⟩
      split
      · split
        · exact emp
        · split
          · exact emp
          · exact Good.err (by decide)
      · exact Good.err (by decide)
  · rw [if_neg ht]
    have hi : i ∈ c.paths := by
      unfold Conn.isTemporary at ht
      rw [Bool.or_eq_true, not_or, Bool.not_eq_true', Bool.not_eq_false,
        List.contains_iff_mem] at ht
      exact ht.2
    exact Good.ok ⟨h, Frame.refl c, hi, fun _ hj => Or.inr hj, List.Perm.refl _, List.prefix_refl _,
      (fun _ => rfl), Nat.le_refl _⟩

end Neqo.Path
