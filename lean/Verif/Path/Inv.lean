import Verif.Path.Lemmas

/-!
What always holds of a connection's paths, and that no assertion fails.
-/

namespace Neqo.Path

/-! ### `retire_cids` -/

/-- What `retireGo` does. -/
structure RetirePost (rp : Nat) (ids : List Nat) (r : Conn.Retiring)
    (x : List Nat × Conn.Retiring) : Prop where
  sub : x.1.Sublist ids
  core : ∀ j, core (x.2.heap j) = core (r.heap j)
  prim : ∀ j, (x.2.heap j).primary = (r.heap j).primary
  other : ∀ j, j ∉ ids → x.2.heap j = r.heap j
  cids : ∀ j ∈ x.1, ∃ e, (x.2.heap j).cid = some e ∧ (e.cid = [] ∨ rp ≤ e.seq)
  kept : ∀ j ∈ ids, (r.heap j).primary = true → ∃ l, x.1 = j :: l
  perm : (x.2.store.map (·.seq) ++ x.1.flatMap (fun i => (x.2.heap i).retired) ++
    x.2.toRetire).Perm (r.store.map (·.seq) ++ ids.flatMap (fun i => (r.heap i).retired) ++
    r.toRetire)
  pre : r.toRetire <+: x.2.toRetire
  store : ∀ e ∈ x.2.store, e ∈ r.store

theorem retireGo_good {rp : Nat} (ids : List Nat) (r : Conn.Retiring) (hnd : ids.Nodup)
    (hcid : ∀ i ∈ ids, (r.heap i).cid.isSome = true)
    (hprim : ∀ i ∈ ids, (r.heap i).primary = true → ids.head? = some i ∧ r.store ≠ [])
    (hst : ∀ e ∈ r.store, e.cid ≠ [] ∧ rp ≤ e.seq) :
    Good (Conn.retireGo rp ids r) (RetirePost rp ids r) := by
  induction ids generalizing r with
  | nil =>
    refine Good.ok ⟨List.Sublist.refl _, fun _ => rfl, fun _ => rfl, fun _ _ => rfl, ?_, ?_,
      List.Perm.refl _, List.prefix_refl _, fun _ h => h⟩
    · intro j hj; cases hj
    · intro j hj; cases hj
  | cons i l ih =>
    rw [List.nodup_cons] at hnd
    have htail : ∀ j ∈ l, (r.heap j).primary = false := by
      intro j hj
      cases hb : (r.heap j).primary with
      | false => rfl
      | true =>
        have := (hprim j (List.mem_cons_of_mem _ hj) hb).1
        rw [List.head?_cons] at this
        obtain rfl := Option.some.inj this
        exact absurd hj hnd.1
    -- The rest, with a heap that agrees on the rest.
    have rest : ∀ r' : Conn.Retiring, (∀ j, j ≠ i → r'.heap j = r.heap j) →
        (∀ e ∈ r'.store, e ∈ r.store) → Good (Conn.retireGo rp l r') (RetirePost rp l r') := by
      intro r' hh hs
      refine ih r' hnd.2 ?_ ?_ ?_
      · intro j hj
        rw [hh j (fun he => hnd.1 (he ▸ hj))]
        exact hcid j (List.mem_cons_of_mem _ hj)
      · intro j hj hb
        rw [hh j (fun he => hnd.1 (he ▸ hj)), htail j hj] at hb
        cases hb
      · intro e he
        exact hst e (hs e he)
    have hsame : ∀ h' : Nat → Path, (∀ j, j ≠ i → h' j = r.heap j) →
        l.flatMap (fun i => (h' i).retired) = l.flatMap (fun i => (r.heap i).retired) := by
      intro h' hh
      rw [List.flatMap, List.flatMap]
      congr 1
      apply List.map_congr_left
      intro j hj
      rw [hh j (fun he => hnd.1 (he ▸ hj))]
    rw [Conn.retireGo]
    split
    · rename_i hn
      have := hcid i List.mem_cons_self
      rw [hn] at this; cases this
    · rename_i e he
      by_cases hc : e.seq < rp ∧ e.cid ≠ []
      · rw [if_pos hc]
        have hret : (r.heap i).retired = [e.seq] := by
          unfold Path.retired; rw [he]; simp only; rw [if_neg hc.2]
        split
        · rename_i n rs hs
          have hn := hst n (by rw [hs]; exact List.mem_cons_self)
          refine Good.bind (rest
            { r with heap := upd r.heap i { r.heap i with cid := some n }, store := rs,
                     toRetire := r.toRetire ++ [e.seq] } (fun j hj => upd_other _ _ hj)
            (fun e he => by rw [hs]; exact List.mem_cons_of_mem _ he)) ?_
          intro x hx
          obtain ⟨k, r2⟩ := x
          have hheap : r2.heap i = { r.heap i with cid := some n } := by
            rw [hx.other i hnd.1]; exact upd_same _ _ _
          refine Good.ok ⟨hx.sub.cons_cons i, ?_, ?_, ?_, ?_, ?_, ?_, ?_, ?_⟩
          · intro j
            refine (hx.core j).trans ?_
            show core (upd r.heap i _ j) = _
            by_cases hj : j = i
            · rw [hj, upd_same]; rfl
            · rw [upd_other _ _ hj]
          · intro j
            refine (hx.prim j).trans ?_
            show (upd r.heap i _ j).primary = _
            by_cases hj : j = i
            · rw [hj, upd_same]
            · rw [upd_other _ _ hj]
          · intro j hj
            rw [List.mem_cons, not_or] at hj
            exact (hx.other j hj.2).trans (upd_other _ _ hj.1)
          · intro j hj
            rcases List.mem_cons.mp hj with rfl | hj
            · exact ⟨n, by rw [hheap], Or.inr hn.2⟩
            · exact hx.cids j hj
          · intro j hj hb
            have := (hprim j hj hb).1
            rw [List.head?_cons] at this
            obtain rfl := Option.some.inj this
            exact ⟨k, rfl⟩
          · have hp := hx.perm
            simp only at hp ⊢
            rw [hsame (upd r.heap i _) (fun j hj => upd_other _ _ hj)] at hp
            rw [List.flatMap_cons, List.flatMap_cons, hret, hs]
            have hrn : (r2.heap i).retired = [n.seq] := by
              unfold Path.retired; rw [hheap]; simp only; rw [if_neg hn.1]
            rw [hrn, List.map_cons]
            -- Both sides have `n.seq` in front.
            have p1 : (r2.store.map (·.seq) ++ ([n.seq] ++ k.flatMap (fun i => (r2.heap i).retired)) ++
                r2.toRetire).Perm (n.seq :: (r2.store.map (·.seq) ++
                  k.flatMap (fun i => (r2.heap i).retired) ++ r2.toRetire)) := by
              rw [List.singleton_append, List.append_assoc, List.cons_append, List.append_assoc]
              exact List.perm_middle
            refine p1.trans ((List.Perm.cons n.seq hp).trans ?_)
            rw [List.cons_append, List.cons_append]
            apply List.Perm.cons
            rw [List.append_assoc, List.append_assoc]
            apply List.Perm.append_left
            rw [← List.append_assoc, List.singleton_append]
            exact List.perm_append_comm.trans (List.Perm.refl _)
          · obtain ⟨s, hs'⟩ := hx.pre
            exact ⟨[e.seq] ++ s, by rw [← List.append_assoc]; exact hs'⟩
          · intro x hx'
            rw [hs]; exact List.mem_cons_of_mem _ (hx.store x hx')
        · rename_i hs
          have hnp : (r.heap i).primary = false := by
            cases hb : (r.heap i).primary with
            | false => rfl
            | true => exact absurd hs (hprim i List.mem_cons_self hb).2
          rw [if_neg (by rw [hnp]; simp)]
          refine (rest
            { r with heap := upd r.heap i { r.heap i with cid := none },
                     toRetire := r.toRetire ++ [e.seq],
                     target := if r.target = some i then none else r.target }
            (fun j hj => upd_other _ _ hj) (fun e he => he)).mono ?_
          intro x hx
          obtain ⟨k, r2⟩ := x
          refine ⟨hx.sub.cons i, ?_, ?_, ?_, hx.cids, ?_, ?_, ?_, hx.store⟩
          · intro j
            refine (hx.core j).trans ?_
            show core (upd r.heap i _ j) = _
            by_cases hj : j = i
            · rw [hj, upd_same]; rfl
            · rw [upd_other _ _ hj]
          · intro j
            refine (hx.prim j).trans ?_
            show (upd r.heap i _ j).primary = _
            by_cases hj : j = i
            · rw [hj, upd_same]
            · rw [upd_other _ _ hj]
          · intro j hj
            rw [List.mem_cons, not_or] at hj
            exact (hx.other j hj.2).trans (upd_other _ _ hj.1)
          · intro j hj hb
            have := (hprim j hj hb).1
            rw [List.head?_cons] at this
            obtain rfl := Option.some.inj this
            rw [hnp] at hb; cases hb
          · have hp := hx.perm
            simp only at hp ⊢
            rw [hsame (upd r.heap i _) (fun j hj => upd_other _ _ hj)] at hp
            rw [List.flatMap_cons, hret]
            refine hp.trans ?_
            rw [List.append_assoc, List.append_assoc]
            apply List.Perm.append_left
            rw [← List.append_assoc, List.singleton_append]
            exact List.perm_append_comm.trans (List.Perm.refl _)
          · obtain ⟨s, hs'⟩ := hx.pre
            exact ⟨[e.seq] ++ s, by rw [← List.append_assoc]; exact hs'⟩
      · rw [if_neg hc]
        refine Good.bind (rest r (fun _ _ => rfl) (fun _ h => h)) ?_
        intro x hx
        obtain ⟨k, r2⟩ := x
        have hheap : r2.heap i = r.heap i := hx.other i hnd.1
        refine Good.ok ⟨hx.sub.cons_cons i, hx.core, hx.prim, ?_, ?_, ?_, ?_, hx.pre, hx.store⟩
        · intro j hj
          rw [List.mem_cons, not_or] at hj
          exact hx.other j hj.2
        · intro j hj
          rcases List.mem_cons.mp hj with rfl | hj
          · refine ⟨e, by rw [hheap]; exact he, ?_⟩
            by_cases he : e.cid = []
            · exact Or.inl he
            · exact Or.inr (by
                have : ¬ e.seq < rp := fun h => hc ⟨h, he⟩
                omega)
          · exact hx.cids j hj
        · intro j hj hb
          have := (hprim j hj hb).1
          rw [List.head?_cons] at this
          obtain rfl := Option.some.inj this
          exact ⟨k, rfl⟩
        · have hp := hx.perm
          simp only at hp ⊢
          rw [List.flatMap_cons, List.flatMap_cons, hheap]
          have swap : ∀ a b c d : List Nat, (a ++ (b ++ c) ++ d).Perm (b ++ (a ++ c ++ d)) := by
            intro a b c d
            simp only [List.append_assoc]
            rw [← List.append_assoc, ← List.append_assoc b]
            exact List.Perm.append_right _ List.perm_append_comm
          exact (swap _ _ _ _).trans ((List.Perm.append_left _ hp).trans (swap _ _ _ _).symm)

theorem keepFrom_mem {rp : Nat} {s : List Entry} {e : Entry} (h : e ∈ keepFrom rp s) : e ∈ s :=
  (List.mem_filter.mp h).1

theorem keep_perm (rp : Nat) (s : List Entry) :
    ((keepFrom rp s).map (·.seq) ++ retiredFrom rp s).Perm (s.map (·.seq)) := by
  unfold keepFrom retiredFrom
  rw [← List.map_append]
  apply List.Perm.map
  refine List.perm_append_comm.trans ?_
  exact List.filter_append_perm (fun e : Entry => !e.isEmpty && decide (e.seq < rp)) s

theorem Conn.retireCids_good {c : Conn} (h : Inv c) {rp : Nat}
    (hs : ∃ e ∈ c.store, rp ≤ e.seq) :
    Good (c.retireCids rp) (fun c' => Inv c' ∧ Frame c c' ∧ (held c').Perm (held c) ∧
      c.toRetire <+: c'.toRetire ∧ c'.primary = c.primary ∧ (∀ j ∈ c'.paths, j ∈ c.paths) ∧
      (∀ j, (c'.heap j).primary = (c.heap j).primary) ∧ (c.paths ≠ [] → c'.paths ≠ []) ∧
      (∀ e ∈ c'.store, rp ≤ e.seq) ∧
      (∀ j ∈ c'.paths, ∃ e, (c'.heap j).cid = some e ∧ (e.cid = [] ∨ rp ≤ e.seq))) := by
  have hkeep : ∀ e ∈ keepFrom rp c.store, e.cid ≠ [] ∧ rp ≤ e.seq := by
    intro e he
    have hm := List.mem_filter.mp he
    have hne := h.storeNe e hm.1
    refine ⟨hne.1, ?_⟩
    have h2 := hm.2
    have hemp : e.isEmpty = false := by
      unfold Entry.isEmpty seqEmpty
      rw [Bool.or_eq_false_iff, decide_eq_false_iff_not, decide_eq_false_iff_not]
      exact ⟨by omega, hne.1⟩
    rw [hemp] at h2
    simp at h2
    exact h2
  have hne : keepFrom rp c.store ≠ [] := by
    obtain ⟨e, he, hle⟩ := hs
    intro hn
    have : e ∈ keepFrom rp c.store := by
      unfold keepFrom
      rw [List.mem_filter]
      refine ⟨he, ?_⟩
      have hd : decide (e.seq < rp) = false := by rw [decide_eq_false_iff_not]; omega
      rw [hd]; simp
    rw [hn] at this; cases this
  unfold Conn.retireCids
  refine Good.bind (retireGo_good c.paths _ h.nodup h.cids ?_ hkeep) ?_
  · intro i hi hb
    refine ⟨?_, hne⟩
    cases hl : c.paths with
    | nil => rw [hl] at hi; cases hi
    | cons a l =>
      obtain ⟨_, _, h3⟩ := h.prim a l hl
      rw [hl] at hi
      rcases List.mem_cons.mp hi with rfl | hi
      · rfl
      · rw [h3 i hi] at hb; cases hb
  · intro x hx
    obtain ⟨k, r⟩ := x
    have hk : ∀ j ∈ k, j ∈ c.paths := fun j hj => hx.sub.subset hj
    refine Good.ok ⟨?_, ⟨hx.core, rfl, rfl, rfl⟩, ?_, ?_, rfl, hk, hx.prim, ?_, ?_, hx.cids⟩
    · constructor
      · exact h.nodup.sublist hx.sub
      · exact Nat.le_trans hx.sub.length_le h.len
      · intro i hi; exact h.lt i (hk i hi)
      · intro p l hl
        have hl : k = p :: l := hl
        cases hp : c.paths with
        | nil =>
          have := hk p (by rw [hl]; exact List.mem_cons_self)
          rw [hp] at this; cases this
        | cons a m =>
          obtain ⟨h1, h2, h3⟩ := h.prim a m hp
          obtain ⟨l', hl'⟩ := hx.kept a (by rw [hp]; exact List.mem_cons_self) h2
          simp only at hl'
          rw [hl] at hl'
          obtain ⟨rfl, rfl⟩ := List.cons.inj hl'
          refine ⟨h1, (hx.prim _).trans h2, ?_⟩
          intro q hq
          refine (hx.prim q).trans (h3 q ?_)
          have hqp := hk q (by rw [hl]; exact List.mem_cons_of_mem _ hq)
          rw [hp] at hqp
          rcases List.mem_cons.mp hqp with rfl | hqp
          · have hnd := h.nodup.sublist hx.sub
            simp only at hnd
            rw [hl, List.nodup_cons] at hnd
            exact absurd hq hnd.1
          · exact hqp
      · intro hn
        have hn : k = [] := hn
        cases hp : c.paths with
        | nil => exact h.primNone hp
        | cons a m =>
          obtain ⟨h1, h2, h3⟩ := h.prim a m hp
          obtain ⟨l', hl'⟩ := hx.kept a (by rw [hp]; exact List.mem_cons_self) h2
          simp only at hl'
          rw [hn] at hl'; cases hl'
      · intro i hi
        obtain ⟨e, he, _⟩ := hx.cids i hi
        show (r.heap i).cid.isSome = true
        rw [he]; rfl
      · intro i; exact (h.ok i).core (hx.core i)
      · intro e he
        exact h.storeNe e (keepFrom_mem (hx.store e he))
    · refine hx.perm.trans ?_
      show ((keepFrom rp c.store).map (·.seq) ++ inUse c ++
        (c.toRetire ++ retiredFrom rp c.store)).Perm (c.store.map (·.seq) ++ inUse c ++ c.toRetire)
      have hk := keep_perm rp c.store
      have : ∀ a b d e : List Nat, (a ++ b ++ (d ++ e)).Perm (a ++ e ++ b ++ d) := by
        intro a b d e
        rw [List.append_assoc, List.append_assoc, List.append_assoc]
        apply List.Perm.append_left
        rw [← List.append_assoc]
        exact List.perm_append_comm
      refine (this _ _ _ _).trans ?_
      exact List.Perm.append_right _ (List.Perm.append_right _ hk)
    · obtain ⟨s, hs'⟩ := hx.pre
      exact ⟨retiredFrom rp c.store ++ s, by rw [← List.append_assoc]; exact hs'⟩
    · intro hne hn
      have hn : k = [] := hn
      cases hp : c.paths with
      | nil => exact hne hp
      | cons a m =>
        obtain ⟨h1, h2, h3⟩ := h.prim a m hp
        obtain ⟨l', hl'⟩ := hx.kept a (by rw [hp]; exact List.mem_cons_self) h2
        simp only at hl'
        rw [hn] at hl'; cases hl'
    · intro e he
      exact (hkeep e (hx.store e he)).2

/-! ### Changes to one path -/

theorem Inv.modify {c : Conn} (h : Inv c) (i : Nat) {f : Path → Path}
    (h1 : (f (c.heap i)).cid = (c.heap i).cid) (h2 : (f (c.heap i)).primary = (c.heap i).primary)
    (h3 : PathOk (f (c.heap i))) : Inv (c.modify i f) := by
  have hp : ∀ j, ((c.modify i f).heap j).primary = (c.heap j).primary := by
    intro j
    show (upd c.heap i _ j).primary = _
    by_cases hj : j = i
    · rw [hj, upd_same, h2]
    · rw [upd_other _ _ hj]
  have hc : ∀ j, ((c.modify i f).heap j).cid = (c.heap j).cid := by
    intro j
    show (upd c.heap i _ j).cid = _
    by_cases hj : j = i
    · rw [hj, upd_same, h1]
    · rw [upd_other _ _ hj]
  refine ⟨h.nodup, h.len, h.lt, ?_, h.primNone, ?_, ?_, h.storeNe⟩
  · intro p l hl
    obtain ⟨a, b, d⟩ := h.prim p l hl
    exact ⟨a, (hp p).trans b, fun q hq => (hp q).trans (d q hq)⟩
  · intro j hj
    rw [hc]; exact h.cids j hj
  · intro j
    show PathOk (upd c.heap i _ j)
    by_cases hj : j = i
    · rw [hj, upd_same]; exact h3
    · rw [upd_other _ _ hj]; exact h.ok j

theorem held_modify {c : Conn} (i : Nat) {f : Path → Path}
    (h1 : (f (c.heap i)).cid = (c.heap i).cid) : held (c.modify i f) = held c := by
  unfold held inUse
  show c.store.map (·.seq) ++ c.paths.flatMap (fun j => (upd c.heap i (f (c.heap i)) j).retired) ++
    c.toRetire = _
  congr 2
  rw [List.flatMap, List.flatMap]
  congr 1
  apply List.map_congr_left
  intro j _
  by_cases hj : j = i
  · rw [hj, upd_same]; exact retired_of_cid h1
  · rw [upd_other _ _ hj]

theorem modify_same (c : Conn) (i : Nat) (f : Path → Path) :
    (c.modify i f).heap i = f (c.heap i) := upd_same _ _ _

theorem modify_other (c : Conn) {i j : Nat} (f : Path → Path) (h : j ≠ i) :
    (c.modify i f).heap j = c.heap j := upd_other _ _ h

theorem PathOk.setValid (p : Path) (now : Nat) : PathOk (p.setValid now) :=
  ⟨(fun n h => by cases h), (fun n d m s h => by cases h), fun _ => rfl⟩

theorem PathOk.probe {p : Path} (h : PathOk p) : PathOk p.probe := by
  unfold Path.probe
  split
  · split
    · refine ⟨(fun n h => ?_), (fun n d m s h => by cases h), (fun h => by cases h)⟩
      cases h; decide
    · exact ⟨(fun n h => by cases h), (fun n d m s h => by cases h), (fun h => by cases h)⟩
  · rename_i hc
    refine ⟨(fun n hn => ?_), (fun n d m s h => by cases h), (fun h => by cases h)⟩
    have hn : PSt.needed _ = PSt.needed n := hn
    obtain rfl := PSt.needed.inj hn
    unfold Path.maxProbes at hc
    omega

theorem probe_cid (p : Path) : p.probe.cid = p.cid := by
  unfold Path.probe; split
  · split <;> rfl
  · rfl

theorem probe_primary (p : Path) : p.probe.primary = p.primary := by
  unfold Path.probe; split
  · split <;> rfl
  · rfl

theorem probe_validated (p : Path) : p.probe.validated = p.validated := by
  unfold Path.probe; split
  · split <;> rfl
  · rfl

theorem probe_challenge (p : Path) : p.probe.challenge = p.challenge := by
  unfold Path.probe; split
  · split <;> rfl
  · rfl

theorem probe_not_probing (p : Path) (n d : Nat) (m : Bool) (s : Nat) :
    p.probe.st ≠ .probing n d m s := by
  unfold Path.probe; split
  · split <;> (intro h; cases h)
  · intro h; cases h

theorem update_ok {p : Path} (h : PathOk p) (now : Nat) : PathOk (p.update now) := by
  unfold Path.update
  split
  · exact ⟨h.1, h.2.1, fun _ => rfl⟩
  · exact h

theorem pathResponse_facts {p : Path} (hok : PathOk p) (d now : Nat) :
    PathOk (p.pathResponse d now).1 ∧ (p.pathResponse d now).1.cid = p.cid ∧
    (p.pathResponse d now).1.primary = p.primary ∧
    (p.pathResponse d now).1.challenge = p.challenge ∧
    ((p.pathResponse d now).2 = true → (∃ n m s, p.st = .probing n d m s) ∧
      (p.pathResponse d now).1.isValid = true ∧
      ∀ n d' m s, (p.pathResponse d now).1.st ≠ .probing n d' m s) ∧
    ((p.pathResponse d now).2 = false → (p.pathResponse d now).1 = p) := by
  unfold Path.pathResponse
  split
  · rename_i n d0 full s hst
    split
    · rename_i he
      subst he
      cases full with
      | true =>
        simp only [if_true]
        exact ⟨PathOk.setValid p now, rfl, rfl, rfl,
          fun _ => ⟨⟨n, true, s, hst⟩, rfl, (fun _ _ _ _ h => by cases h)⟩, (fun h => by cases h)⟩
      | false =>
        simp only [Bool.false_eq_true, if_false]
        refine ⟨(PathOk.setValid p now).probe, probe_cid _, probe_primary _, probe_challenge _,
          fun _ => ⟨⟨n, false, s, hst⟩, ?_, fun _ _ _ _ => probe_not_probing _ _ _ _ _⟩,
          (fun h => by cases h)⟩
        unfold Path.isValid
        rw [probe_validated]; rfl
    · exact ⟨hok, rfl, rfl, rfl, (fun h => by cases h), fun _ => rfl⟩
  · exact ⟨hok, rfl, rfl, rfl, (fun h => by cases h), fun _ => rfl⟩

end Neqo.Path
