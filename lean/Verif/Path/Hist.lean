import Verif.Path.Step

/-!
What holds of every history of a connection's paths.
-/

namespace Neqo.Path

/-! ### Small steps -/

theorem FP.frame {chal : Nat → List Nat} {cause : Nat → Prop} {c c' : Conn} {i : Nat} (h : Inv c')
    (f : Frame c c') (ha : Avail c' i) (hw : Waits chal c) (hne : c.paths ≠ [] → c'.paths ≠ [])
    (hheld : (Path.held c').Perm (Path.held c)) (hpre : c.toRetire <+: c'.toRetire)
    (hmem : ∀ j ∈ c'.paths, j = i ∨ j ∈ c.paths)
    (hprim : c.client = true →
      c'.primary = c.primary ∨ ∃ p, c'.primary = some p ∧ (c.heap p).isValid = true)
    (hst : c'.store.length ≤ c.store.length) : FP chal cause i [] [] c c' := by
  refine ⟨h, ha, hne, f.next, f.client, f.connected, hheld, hpre, hmem, hw.frame f, ?_, ?_, ?_,
    fun j _ => f.challenge j, ?_, (fun hs => Nat.lt_of_le_of_lt hst hs), f.addr⟩
  · intro j hj; rw [f.valid] at hj; exact Or.inl hj
  · intro j hj; rw [f.valid]; exact hj
  · intro hcl
    rcases hprim hcl with h1 | ⟨p, h1, h2⟩
    · exact Or.inl h1
    · exact Or.inr ⟨p, h1, by rw [f.valid]; exact h2⟩
  · intro R G hs; rw [f.challenge]; exact hs

theorem Avail.of_mem {c : Conn} (h : Inv c) {i : Nat} (hi : i ∈ c.paths) : Avail c i :=
  ⟨h.lt i hi, fun hn => absurd hi hn⟩

theorem FP.ensure {chal : Nat → List Nat} {cause : Nat → Prop} {c : Conn} (h : Inv c) {i : Nat}
    (ha : Avail c i) (hw : Waits chal c) (hne : c.paths ≠ []) :
    Good (c.ensurePermanent i) (fun c' => FP chal cause i [] [] c c' ∧ i ∈ c'.paths) := by
  refine (Conn.ensurePermanent_good h ha).mono ?_
  intro c' ⟨h1, f1, hi, hmem, hheld, hpre, hprim, hsl⟩
  refine ⟨FP.frame h1 f1 (.of_mem h1 hi) hw (fun _ hn => ?_) hheld hpre hmem
    (fun _ => Or.inl (hprim hne)) hsl, hi⟩
  rw [hn] at hi; cases hi

theorem FP.select {chal : Nat → List Nat} {cause : Nat → Prop} {c : Conn} (h : Inv c) {i : Nat}
    (hi : i ∈ c.paths) (hw : Waits chal c) (hv : c.client = true → (c.heap i).isValid = true) :
    Good (c.selectPrimary i) (fun c' => FP chal cause i [] [] c c' ∧ i ∈ c'.paths ∧
      c'.paths.Perm c.paths ∧ c'.primary = some i) := by
  refine (Conn.selectPrimary_good h.pre hi).mono ?_
  intro c' ⟨h2, f2, hperm, hp2, hst2, hret2, _, hcid2, _⟩
  have hi' := hperm.mem_iff.mpr hi
  refine ⟨FP.frame h2 f2 (.of_mem h2 hi') hw (fun _ hn => ?_) (held_perm hst2 hret2 hperm hcid2)
    (by rw [hret2]; exact List.prefix_refl _) (fun j hj => Or.inr (hperm.mem_iff.mp hj))
    (fun hc => Or.inr ⟨i, hp2, hv hc⟩) (Nat.le_of_eq (by rw [hst2])), hi', hperm, hp2⟩
  rw [hn] at hi'; cases hi'

/-- What a change to one path leaves alone. -/
structure Mild (p q : Path) : Prop where
  cid : q.cid = p.cid
  primary : q.primary = p.primary
  challenge : q.challenge = p.challenge
  ok : PathOk q
  waits : ∀ n d m s, q.st = .probing n d m s → p.st = .probing n d m s
  keep : p.isValid = true → q.isValid = true
  addr : q.loc = p.loc ∧ q.rem = p.rem

theorem Mild.setValid (p : Path) (now : Nat) : Mild p (p.setValid now) :=
  ⟨rfl, rfl, rfl, PathOk.setValid p now, (fun _ _ _ _ h => by cases h), (fun _ => rfl), ⟨rfl, rfl⟩⟩

theorem Mild.probe {p : Path} (h : PathOk p) : Mild p p.probe :=
  ⟨probe_cid p, probe_primary p, probe_challenge p, h.probe,
    fun _ _ _ _ hs => absurd hs (probe_not_probing p _ _ _ _),
    (fun hv => by unfold Path.isValid; rw [probe_validated]; exact hv), probe_addr p⟩

theorem Mild.update {p : Path} (h : PathOk p) (now : Nat) : Mild p (p.update now) := by
  refine ⟨?_, ?_, ?_, update_ok h now, ?_, ?_, ?_⟩ <;> unfold Path.update <;> split <;>
    first
    | rfl
    | exact fun _ _ _ _ h => h
    | exact fun h => h
    | exact fun _ => rfl
    | exact ⟨rfl, rfl⟩

theorem update_valid (p : Path) (now : Nat) : (p.update now).isValid = p.isValid := by
  unfold Path.update
  split
  · rename_i h; unfold Path.isValid; rw [h]; rfl
  · rfl

theorem probe_valid (p : Path) : p.probe.isValid = p.isValid := by
  unfold Path.isValid; rw [probe_validated]

theorem FP.modify {chal : Nat → List Nat} {cause : Nat → Prop} {c : Conn} (h : Inv c) {i x : Nat}
    {f : Path → Path} (ha : Avail c i) (hw : Waits chal c) (m : Mild (c.heap x) (f (c.heap x)))
    (hv : (f (c.heap x)).isValid = true → (c.heap x).isValid = true ∨ cause x) :
    FP chal cause i [] [] c (c.modify x f) := by
  have h1 : Inv (c.modify x f) := h.modify x m.cid m.primary m.ok
  have hch : ∀ j, ((c.modify x f).heap j).challenge = (c.heap j).challenge := by
    intro j
    by_cases hj : j = x
    · rw [hj, modify_same]; exact m.challenge
    · rw [modify_other _ _ hj]
  have hpr : ∀ j, ((c.modify x f).heap j).primary = (c.heap j).primary := by
    intro j
    by_cases hj : j = x
    · rw [hj, modify_same]; exact m.primary
    · rw [modify_other _ _ hj]
  refine ⟨h1, ⟨ha.1, fun hn => (hpr i).trans (ha.2 hn)⟩, fun hn => hn, rfl, rfl, rfl, ?_,
    List.prefix_refl _, fun j hj => Or.inr hj, ?_, ?_, ?_, fun _ => Or.inl rfl, fun j _ => hch j, ?_,
    fun hs => hs, ?_⟩
  · rw [held_modify x m.cid]; exact List.Perm.refl _
  · intro j n d mm s hs
    by_cases hj : j = x
    · rw [hj, modify_same] at hs
      rw [hj]
      exact hw x n d mm s (m.waits n d mm s hs)
    · rw [modify_other _ _ hj] at hs
      exact hw j n d mm s hs
  · intro j hj
    by_cases hjx : j = x
    · rw [hjx, modify_same] at hj
      rw [hjx]; exact hv hj
    · rw [modify_other _ _ hjx] at hj
      exact Or.inl hj
  · intro j hj
    by_cases hjx : j = x
    · rw [hjx, modify_same]; rw [hjx] at hj; exact m.keep hj
    · rw [modify_other _ _ hjx]; exact hj
  · intro R G hs; rw [hch]; exact hs
  · intro j
    by_cases hjx : j = x
    · rw [hjx, modify_same]; exact m.addr
    · rw [modify_other _ _ hjx]; exact ⟨rfl, rfl⟩

theorem FP.target {chal : Nat → List Nat} {cause : Nat → Prop} {c : Conn} (h : Inv c) {i : Nat}
    (ha : Avail c i) (hw : Waits chal c) (t : Option Nat) :
    FP chal cause i [] [] c { c with target := t } :=
  FP.frame (c' := { c with target := t }) { h with } ⟨fun _ => rfl, rfl, rfl, rfl⟩ ha hw
    (fun hn => hn) (List.Perm.refl _) (List.prefix_refl _) (fun _ hj => Or.inr hj)
    (fun _ => Or.inl rfl) (Nat.le_refl _)

/-! ### The operations -/

theorem Conn.handleMigration_good {chal : Nat → List Nat} {cause : Nat → Prop} {c : Conn}
    (h : Inv c) {i : Nat} (ha : Avail c i) (hw : Waits chal c) (hne : c.paths ≠ []) (now : Nat) :
    Good (c.handleMigration i now) (FP chal cause i [] [] c) := by
  unfold Conn.handleMigration
  split
  · exact Good.ok (FP.refl h ha hw)
  · rename_i hcl
    have hs := FP.ensure (cause := cause) h ha hw hne
    split
    · rename_i c1 hc1
      obtain ⟨p1, hi⟩ := hs.1 c1 hc1
      unfold Conn.handleMigrationPath
      split
      · exact Good.ok (p1.trans (FP.modify p1.inv p1.avail p1.waits (.update (p1.inv.ok i) now)
          (fun hv => Or.inl (by rw [update_valid] at hv; exact hv))))
      · refine Good.bind (FP.select (cause := cause) p1.inv hi p1.waits
          (fun hc => absurd (p1.client ▸ hc) hcl)) ?_
        intro c2 ⟨p2, hi2, _, _⟩
        cases hpr : c1.primary with
        | none => exact Good.ok (p1.trans p2)
        | some o =>
          show Good (if c2.paths.contains i then _ else _) _
          split
          · exact Good.ok ((p1.trans p2).trans (FP.modify p2.inv p2.avail p2.waits
              (.probe (p2.inv.ok o)) (fun hv => Or.inl (by rw [probe_valid] at hv; exact hv))))
          · exact Good.ok (p1.trans p2)
    · rename_i hp; exact absurd hp hs.2
    · exact Good.ok (FP.refl h ha hw)

theorem Conn.migratePath_good {chal : Nat → List Nat} {c : Conn}
    (h : Inv c) {i : Nat} (hi : i ∈ c.paths) (hw : Waits chal c) (force : Bool) (now : Nat) :
    Good (c.migratePath i force now) (FP chal (fun j => force = true ∧ j = i) i [] [] c) := by
  unfold Conn.migratePath
  have ht : ¬ c.isTemporary i = true := by
    unfold Conn.isTemporary
    have h1 := h.cids i hi
    cases hc : (c.heap i).cid with
    | none => rw [hc] at h1; cases h1
    | some e =>
      have : c.paths.contains i = true := List.contains_iff_mem.mpr hi
      simp [hi]
  rw [if_neg ht]
  let g : Path → Path := fun p => { p with ecn := p.ecn.start }
  have mg : Mild (c.heap i) (g (c.heap i)) :=
    ⟨rfl, rfl, rfl, h.ok i, fun _ _ _ _ h => h, fun h => h, ⟨rfl, rfl⟩⟩
  have p1 : FP chal (fun j => force = true ∧ j = i) i [] [] c (c.modify i g) :=
    FP.modify h (.of_mem h hi) hw mg (fun hv => Or.inl hv)
  apply Good.bind (P := FP chal (fun j => force = true ∧ j = i) i [] [] c)
  · unfold Conn.retarget
    split
    · rename_i hf
      have p2 : FP chal (fun j => force = true ∧ j = i) i [] [] (c.modify i g)
          ((c.modify i g).modify i (fun p => p.setValid now)) := by
        refine FP.modify p1.inv p1.avail p1.waits (.setValid _ now) (fun _ => ?_)
        rw [Bool.or_eq_true] at hf
        rcases hf with hf | hf
        · exact Or.inr ⟨hf, rfl⟩
        · exact Or.inl hf
      refine Good.bind (FP.select (cause := fun j => force = true ∧ j = i) p2.inv (i := i) hi
        p2.waits (fun _ => ?_)) ?_
      · rw [modify_same]; rfl
      · intro c3 ⟨p3, _, _, _⟩
        exact Good.ok (((p1.trans p2).trans p3).trans (FP.target p3.inv p3.avail p3.waits none))
    · exact Good.ok (p1.trans (FP.target p1.inv p1.avail p1.waits (some i)))
  · intro c4 p4
    exact Good.ok (p4.trans (FP.modify p4.inv p4.avail p4.waits (.probe (p4.inv.ok i))
      (fun hv => Or.inl (by rw [probe_valid] at hv; exact hv))))

theorem Mild.reprobe {p : Path} (h : PathOk p) (now pto : Nat) : Mild p (p.reprobe now pto) := by
  have hr : Mild p p := ⟨rfl, rfl, rfl, h, fun _ _ _ _ h => h, fun h => h, ⟨rfl, rfl⟩⟩
  unfold Path.reprobe
  split
  · split
    · exact .probe h
    · exact hr
  · exact hr

theorem reprobe_valid (p : Path) (now pto : Nat) : (p.reprobe now pto).isValid = p.isValid := by
  unfold Path.reprobe
  split
  · split
    · exact probe_valid p
    · rfl
  · rfl

/-- The paths and the connection IDs when those that are not viable are dropped. -/
theorem dropped_perm (heap heap' : Nat → Path) (hc : ∀ j, (heap' j).cid = (heap j).cid)
    (v : Nat → Bool) (l : List Nat) :
    ((l.filter v).flatMap (fun i => (heap' i).retired) ++
      (l.filter (fun i => !v i)).flatMap (fun i => (heap' i).retired)).Perm
      (l.flatMap (fun i => (heap i).retired)) := by
  have hf : (fun i => (heap' i).retired) = (fun i => (heap i).retired) := by
    funext j; exact retired_of_cid (hc j)
  rw [hf, ← List.flatMap_append]
  exact List.Perm.flatMap_right _ (List.filter_append_perm v l)

theorem Conn.processTimeout_good {chal : Nat → List Nat} {c : Conn}
    (h : Inv c) (hw : Waits chal c) (hne : c.paths ≠ []) (now pto : Nat) :
    Good (c.processTimeout now pto)
      (fun c' => ∃ i ∈ c.paths, FP chal (fun _ => False) i [] [] c c') := by
  unfold Conn.processTimeout
  simp only
  let hp : Nat → Path := fun i => if c.paths.contains i then (c.heap i).reprobe now pto else c.heap i
  have hm : ∀ j, Mild (c.heap j) (hp j) := by
    intro j
    show Mild _ (if c.paths.contains j then _ else _)
    split
    · exact .reprobe (h.ok j) now pto
    · exact ⟨rfl, rfl, rfl, h.ok j, fun _ _ _ _ h => h, fun h => h, ⟨rfl, rfl⟩⟩
  have hv : ∀ j, (hp j).isValid = (c.heap j).isValid := by
    intro j
    show (if c.paths.contains j then _ else _ : Path).isValid = _
    split
    · exact reprobe_valid _ _ _
    · rfl
  let v : Nat → Bool := fun i => (hp i).viable now pto
  let c1 : Conn := { c with
    heap := hp
    paths := c.paths.filter v
    toRetire := c.toRetire ++ (c.paths.filter (fun i => !v i)).flatMap (fun i => (hp i).retired) }
  have hw1 : Waits chal c1 := fun j n d m s hs => hw j n d m s ((hm j).waits n d m s hs)
  have hheld : (Path.held c1).Perm (Path.held c) := by
    show (c.store.map (·.seq) ++ (c.paths.filter v).flatMap (fun i => (hp i).retired) ++
      (c.toRetire ++ (c.paths.filter (fun i => !v i)).flatMap (fun i => (hp i).retired))).Perm
      (c.store.map (·.seq) ++ c.paths.flatMap (fun i => (c.heap i).retired) ++ c.toRetire)
    simp only [List.append_assoc]
    apply List.Perm.append_left
    refine (List.Perm.append_left _ List.perm_append_comm).trans ?_
    rw [← List.append_assoc]
    exact List.Perm.append_right _ (dropped_perm c.heap hp (fun j => (hm j).cid) v c.paths)
  have hsub : ∀ j ∈ c1.paths, j ∈ c.paths := fun j hj => (List.mem_filter.mp hj).1
  have hpre1 : c.toRetire <+: c1.toRetire := List.prefix_append _ _
  -- What remains once the new state is known to be in order.
  have fin : ∀ (c2 : Conn) (i : Nat), Inv c2 → i ∈ c2.paths →
      (∀ j, core (c2.heap j) = core (hp j)) → c2.next = c.next → c2.client = c.client →
      c2.connected = c.connected → (Path.held c2).Perm (Path.held c1) → c2.toRetire = c1.toRetire →
      (∀ j ∈ c2.paths, j ∈ c.paths) → c2.store = c.store →
      (c2.primary = c.primary ∨ ∃ p, c2.primary = some p ∧ (hp p).isValid = true) →
      FP chal (fun _ => False) i [] [] c c2 := by
    intro c2 i h2 hi hcore hn hcl hco hh hr hs hst hprim
    have f : Frame c1 c2 := ⟨hcore, hn, hcl, hco⟩
    refine ⟨h2, .of_mem h2 hi, ?_, hn, hcl, hco, hh.trans hheld, hr ▸ hpre1, fun j hj => Or.inr (hs j hj),
      hw1.frame f, ?_, ?_, ?_, ?_, ?_, ?_, ?_⟩
    · intro _ hnil; rw [hnil] at hi; cases hi
    · intro j hj
      rw [f.valid] at hj
      exact Or.inl ((hv j) ▸ hj)
    · intro j hj
      rw [f.valid]
      exact (hm j).keep hj
    · intro _
      rcases hprim with hx | ⟨p, h1, h2⟩
      · exact Or.inl hx
      · exact Or.inr ⟨p, h1, by rw [f.valid]; exact h2⟩
    · intro j _
      rw [f.challenge]; exact (hm j).challenge
    · intro R G hs
      rw [f.challenge]
      show ((hp i).challenge.toList ++ R).Sublist _
      rw [(hm i).challenge]; exact hs
    · rw [hst]; exact fun hs => hs
    · intro j
      exact ⟨(f.addr j).1.trans (hm j).addr.1, (f.addr j).2.trans (hm j).addr.2⟩
  show Good (if (c.paths.filter (fun i => !v i)).any (fun i => (hp i).primary) then
    (match c1.paths.reverse.find? (fun i => (c1.heap i).isValid) with
      | some f => { c1 with primary := none }.selectPrimary f
      | none => .error .noAvailablePath)
    else .ok c1) _
  match hpl : c.paths with
  | [] => exact absurd hpl hne
  | a :: l =>
    obtain ⟨ha1, ha2, ha3⟩ := h.prim a l hpl
    have haM : a ∈ c.paths := by rw [hpl]; exact List.mem_cons_self
    have hnd : a ∉ l := by
      have := h.nodup; rw [hpl, List.nodup_cons] at this; exact this.1
    rw [← hpl]
    split
    · rename_i hany
      obtain ⟨g, hg, hgp⟩ := List.any_eq_true.mp hany
      obtain ⟨hgm, hgv⟩ := List.mem_filter.mp hg
      rw [(hm g).primary] at hgp
      have hga : g = a := by
        rw [hpl] at hgm
        rcases List.mem_cons.mp hgm with h1 | h1
        · exact h1
        · rw [ha3 g h1] at hgp; cases hgp
      split
      · rename_i f hf
        have hfm : f ∈ c1.paths := List.mem_reverse.mp (List.mem_of_find?_eq_some hf)
        have hfv := List.find?_some hf
        have hpre : Pre { c1 with primary := none } := by
          refine ⟨h.nodup.filter _, Nat.le_trans (List.length_filter_le _ _) h.len,
            fun j hj => h.lt j (hsub j hj), ?_, (fun q hq => by cases hq), ?_, fun j => (hm j).ok,
            h.storeNe⟩
          · intro q hq hqp
            have hqp : (hp q).primary = true := hqp
            rw [(hm q).primary] at hqp
            obtain ⟨hqm, hqv⟩ := List.mem_filter.mp hq
            have : q = a := by
              rw [hpl] at hqm
              rcases List.mem_cons.mp hqm with h1 | h1
              · exact h1
              · rw [ha3 q h1] at hqp; cases hqp
            rw [hga] at hgv
            rw [this] at hqv
            rw [hqv] at hgv; cases hgv
          · intro j hj
            show (hp j).cid.isSome = true
            rw [(hm j).cid]; exact h.cids j (hsub j hj)
        refine (Conn.selectPrimary_good hpre hfm).mono ?_
        intro c2 ⟨h2, f2, hperm, hp2, hst2, hret2, _, hcid2, _⟩
        exact ⟨f, hsub f hfm, fin c2 f h2 (hperm.mem_iff.mpr hfm) f2.core f2.next f2.client f2.connected
          (held_perm hst2 hret2 hperm hcid2) hret2 (fun j hj => hsub j (hperm.mem_iff.mp hj)) hst2
          (Or.inr ⟨f, hp2, hfv⟩)⟩
      · exact Good.err (by decide)
    · rename_i hany
      have hav : v a = true := by
        cases hx : v a with
        | true => rfl
        | false =>
          refine absurd (List.any_eq_true.mpr ⟨a, List.mem_filter.mpr ⟨haM, ?_⟩, ?_⟩) hany
          · simp only [hx, Bool.not_false]
          · rw [(hm a).primary]; exact ha2
      have hfl : c1.paths = a :: l.filter v := by
        show c.paths.filter v = _
        rw [hpl, List.filter_cons_of_pos hav]
      have h1 : Inv c1 := by
        refine ⟨h.nodup.filter _, Nat.le_trans (List.length_filter_le _ _) h.len,
            fun j hj => h.lt j (hsub j hj), ?_, ?_, ?_, fun j => (hm j).ok, h.storeNe⟩
        · intro p r hpr
          rw [hfl] at hpr
          obtain ⟨rfl, rfl⟩ := List.cons.inj hpr
          refine ⟨ha1, (hm a).primary.trans ha2, ?_⟩
          intro q hq
          exact (hm q).primary.trans (ha3 q (List.mem_filter.mp hq).1)
        · intro hn; rw [hfl] at hn; cases hn
        · intro j hj
          show (hp j).cid.isSome = true
          rw [(hm j).cid]; exact h.cids j (hsub j hj)
      exact Good.ok ⟨a, haM, fin c1 a h1 (by rw [hfl]; exact List.mem_cons_self) (fun _ => rfl) rfl rfl rfl
        (List.Perm.refl _) rfl hsub rfl (Or.inl rfl)⟩

/-! ### Histories -/

/-- What always holds of a connection and what was seen of it. -/
structure HI (c : Conn) (s : Seen) : Prop where
  inv : Inv c
  waits : Waits s.chal c
  echo : ∀ j, ((c.heap j).challenge.toList ++ s.resp j).Sublist (s.got j)
  fresh : ∀ j, c.next ≤ j → (c.heap j).isValid = false ∧ s.chal j = []
  acct : s.added.Perm (c.store.map (·.seq) ++ inUse c ++ s.retired)
  queue : ∀ q, q ∈ s.retired ↔ q ∈ c.toRetire ∨ q ∈ s.out ∨ q ∈ s.acked
  store : c.store.length < activeLimit
  prim : c.client = true → ∀ p, c.primary = some p → (c.heap p).isValid = true
  addr : ∀ i ∈ c.paths, ∀ j ∈ c.paths, (c.heap i).loc = (c.heap j).loc →
    (c.heap i).rem = (c.heap j).rem → i = j

/-- No other path in use has the addresses of `i`. -/
def Own (c : Conn) (i : Nat) : Prop := ∀ j ∈ c.paths, (c.heap j).loc = (c.heap i).loc →
  (c.heap j).rem = (c.heap i).rem → j = i

theorem HI.fp {c c' : Conn} {s : Seen} {cause : Nat → Prop} {i : Nat} {fs : List PFrame}
    {tk : List Nat} (h : HI c s) (f : FP s.chal cause i fs tk c c')
    (hc : ∀ j, cause j → j < c.next) (ho : Own c i) :
    HI c' { s with got := note s.got i (challenges fs)
                   added := tk ++ s.added
                   retired := c'.toRetire.drop c.toRetire.length ++ s.retired } := by
  obtain ⟨x, hx⟩ := f.pre
  have hd : c'.toRetire.drop c.toRetire.length = x := by rw [← hx, List.drop_left]
  refine ⟨f.inv, f.waits, ?_, ?_, ?_, ?_, f.store h.store, ?_, ?_⟩
  · intro j
    show ((c'.heap j).challenge.toList ++ s.resp j).Sublist (note s.got i (challenges fs) j)
    unfold note
    by_cases hj : j = i
    · rw [if_pos hj, hj]
      exact f.chalSelf _ _ (h.echo i)
    · rw [if_neg hj, f.chalOther j hj]; exact h.echo j
  · intro j hj
    rw [f.next] at hj
    refine ⟨?_, (h.fresh j hj).2⟩
    cases hv : (c'.heap j).isValid with
    | false => rfl
    | true =>
      rcases f.valid j hv with h1 | h1
      · rw [(h.fresh j hj).1] at h1; cases h1
      · have := hc j h1; omega
  · show (tk ++ s.added).Perm (c'.store.map (·.seq) ++ inUse c' ++
      (c'.toRetire.drop c.toRetire.length ++ s.retired))
    rw [hd]
    have h1 := f.held
    unfold Path.held at h1
    rw [← hx] at h1
    have h2 : (c'.store.map (·.seq) ++ inUse c' ++ x).Perm (tk ++ (c.store.map (·.seq) ++ inUse c)) := by
      apply (List.perm_append_right_iff c.toRetire).mp
      refine List.Perm.trans ?_ (h1.trans ?_)
      · rw [List.append_assoc]
        exact List.Perm.append_left _ List.perm_append_comm
      · rw [← List.append_assoc]
    refine (h.acct.append_left tk).trans ?_
    have h3 := h2.symm.append_right s.retired
    simp only [List.append_assoc] at h3 ⊢
    exact h3
  · intro q
    show q ∈ c'.toRetire.drop c.toRetire.length ++ s.retired ↔ q ∈ c'.toRetire ∨ _ ∨ _
    rw [hd, ← hx, List.mem_append, List.mem_append, h.queue q]
    constructor
    · rintro (h1 | h1 | h1)
      · exact Or.inl (Or.inr h1)
      · exact Or.inl (Or.inl h1)
      · exact Or.inr h1
    · rintro ((h1 | h1) | h1)
      · exact Or.inr (Or.inl h1)
      · exact Or.inl h1
      · exact Or.inr (Or.inr h1)
  · intro hcl p hp
    rw [f.client] at hcl
    rcases f.prim hcl with h1 | ⟨p', h1, h2⟩
    · rw [h1] at hp
      exact f.keep p (h.prim hcl p hp)
    · rw [h1] at hp
      obtain rfl := Option.some.inj hp
      exact h2
  · intro x hx y hy h1 h2
    rw [(f.addr x).1, (f.addr y).1] at h1
    rw [(f.addr x).2, (f.addr y).2] at h2
    rcases f.mem x hx with hx | hx
    · rcases f.mem y hy with hy | hy
      · rw [hx, hy]
      · rw [hx] at h1 h2 ⊢
        exact (ho y hy h1.symm h2.symm).symm
    · rcases f.mem y hy with hy | hy
      · rw [hy] at h1 h2 ⊢
        exact ho x hx h1 h2
      · exact h.addr x hx y hy h1 h2

theorem Own.same {c c' : Conn} {i : Nat} (h : Own c i) (hp : c'.paths = c.paths)
    (ha : ∀ j, (c'.heap j).loc = (c.heap j).loc ∧ (c'.heap j).rem = (c.heap j).rem) : Own c' i := by
  intro j hj h1 h2
  rw [hp] at hj
  rw [(ha j).1, (ha i).1] at h1
  rw [(ha j).2, (ha i).2] at h2
  exact h j hj h1 h2

theorem HI.own {c : Conn} {s : Seen} (h : HI c s) {i : Nat} (hi : i ∈ c.paths) : Own c i :=
  fun j hj h1 h2 => h.addr j hj i hi h1 h2

theorem note_nil (f : Nat → List Nat) (i : Nat) : note f i [] = f := by
  funext j; unfold note; split <;> rfl

/-- As `HI.fp`, when no frame is involved. -/
theorem HI.fp0 {c c' : Conn} {s : Seen} {cause : Nat → Prop} {i : Nat} {tk : List Nat} (h : HI c s)
    (f : FP s.chal cause i [] tk c c') (hc : ∀ j, cause j → j < c.next) (ho : Own c i) :
    HI c' { s with added := tk ++ s.added
                   retired := c'.toRetire.drop c.toRetire.length ++ s.retired } := by
  have := h.fp f hc ho
  rw [show challenges [] = [] from rfl, note_nil] at this
  exact this

/-- As `HI.fp0`, when nothing is taken in or retired. -/
theorem HI.fp1 {c c' : Conn} {s : Seen} {cause : Nat → Prop} {i : Nat} (h : HI c s)
    (f : FP s.chal cause i [] [] c c') (hc : ∀ j, cause j → j < c.next)
    (hr : c'.toRetire = c.toRetire) (ho : Own c i) : HI c' s := by
  have := h.fp0 f hc ho
  rw [hr, List.drop_length] at this
  exact this

/-- Finding a path. -/
structure Found (c : Conn) (r : Conn × Nat) : Prop where
  inv : Inv r.1
  avail : Avail r.1 r.2
  paths : r.1.paths = c.paths
  primary : r.1.primary = c.primary
  store : r.1.store = c.store
  toRetire : r.1.toRetire = c.toRetire
  client : r.1.client = c.client
  connected : r.1.connected = c.connected
  next : c.next ≤ r.1.next
  heap : ∀ j, r.1.heap j = c.heap j ∨
    (c.next ≤ j ∧ (r.1.heap j).isValid = false ∧ (r.1.heap j).challenge = none ∧
      ∀ n d m s, (r.1.heap j).st ≠ .probing n d m s)
  temp : r.2 ∉ c.paths → (r.1.heap r.2).cid = none
  own : r.2 ∉ c.paths → Own r.1 r.2

theorem Conn.findPath_found {c : Conn} (h : Inv c) (loc rem mtu : Nat) :
    Found c (c.findPath loc rem mtu) := by
  unfold Conn.findPath
  split
  · rename_i i hi
    have := List.mem_of_find?_eq_some hi
    exact ⟨h, .of_mem h this, rfl, rfl, rfl, rfl, rfl, rfl, Nat.le_refl _, fun _ => Or.inl rfl,
      fun hn => absurd this hn, fun hn => absurd this hn⟩
  · rename_i hnone
    have ho : ∀ j, j ≠ c.next → upd c.heap c.next (.temporary loc rem mtu) j = c.heap j :=
      fun j hj => upd_other _ _ hj
    have hs : upd c.heap c.next (.temporary loc rem mtu) c.next = .temporary loc rem mtu :=
      upd_same _ _ _
    have hin : ∀ j ∈ c.paths, upd c.heap c.next (.temporary loc rem mtu) j = c.heap j := by
      intro j hj
      exact ho j (by have := h.lt j hj; omega)
    refine ⟨?_, ⟨Nat.lt_succ_self _, fun _ => ?_⟩, rfl, rfl, rfl, rfl, rfl, rfl, Nat.le_succ _, ?_, ?_,
      ?_⟩
    · refine ⟨h.nodup, h.len, fun j hj => Nat.lt_succ_of_lt (h.lt j hj), ?_, h.primNone, ?_, ?_,
        h.storeNe⟩
      · intro p l hpl
        have hpl : c.paths = p :: l := hpl
        obtain ⟨h1, h2, h3⟩ := h.prim p l hpl
        refine ⟨h1, ?_, ?_⟩
        · show (upd c.heap c.next _ p).primary = true
          rw [hin p (by rw [hpl]; exact List.mem_cons_self)]; exact h2
        · intro q hq
          show (upd c.heap c.next _ q).primary = false
          rw [hin q (by rw [hpl]; exact List.mem_cons_of_mem _ hq)]; exact h3 q hq
      · intro j hj
        show (upd c.heap c.next _ j).cid.isSome = true
        rw [hin j hj]; exact h.cids j hj
      · intro j
        show PathOk (upd c.heap c.next _ j)
        by_cases hj : j = c.next
        · rw [hj, hs]
          refine ⟨(fun n hn => ?_), (fun _ _ _ _ h => by cases h), (fun h => by cases h)⟩
          cases hn; decide
        · rw [ho j hj]; exact h.ok j
    · show (upd c.heap c.next _ c.next).primary = false
      rw [hs]; rfl
    · intro j
      by_cases hj : j = c.next
      · refine Or.inr ⟨Nat.le_of_eq hj.symm, ?_⟩
        show (upd c.heap c.next _ j).isValid = false ∧ (upd c.heap c.next _ j).challenge = none ∧
          ∀ n d m s, (upd c.heap c.next _ j).st ≠ _
        rw [hj, hs]
        exact ⟨rfl, rfl, (fun _ _ _ _ h => by cases h)⟩
      · exact Or.inl (ho j hj)
    · intro _
      show (upd c.heap c.next _ c.next).cid = none
      rw [hs]; rfl
    · intro _ j hj h1 h2
      have hj : j ∈ c.paths := hj
      have h1 : (upd c.heap c.next _ j).loc = (upd c.heap c.next _ c.next).loc := h1
      have h2 : (upd c.heap c.next _ j).rem = (upd c.heap c.next _ c.next).rem := h2
      rw [hs, hin j hj] at h1 h2
      have := List.find?_eq_none.mp hnone j hj
      rw [Bool.and_eq_true, decide_eq_true_eq, decide_eq_true_eq] at this
      exact absurd ⟨h1, h2⟩ this

theorem HI.found {c : Conn} {s : Seen} (h : HI c s) {r : Conn × Nat} (f : Found c r) :
    HI r.1 s := by
  refine ⟨f.inv, ?_, ?_, ?_, ?_, ?_, ?_, ?_, ?_⟩
  · intro j n d m sent hs
    rcases f.heap j with h1 | h1
    · rw [h1] at hs; exact h.waits j n d m sent hs
    · exact absurd hs (h1.2.2.2 n d m sent)
  · intro j
    rcases f.heap j with h1 | h1
    · rw [h1]; exact h.echo j
    · rw [h1.2.2.1]
      exact (List.sublist_append_right _ _).trans (h.echo j)
  · intro j hj
    have hj' := Nat.le_trans f.next hj
    refine ⟨?_, (h.fresh j hj').2⟩
    rcases f.heap j with h1 | h1
    · rw [h1]; exact (h.fresh j hj').1
    · exact h1.2.1
  · have : inUse r.1 = inUse c := by
      unfold inUse
      rw [f.paths, List.flatMap, List.flatMap]
      congr 1
      apply List.map_congr_left
      intro j hj
      rcases f.heap j with h1 | h1
      · rw [h1]
      · have := h.inv.lt j hj; omega
    rw [f.store, this]; exact h.acct
  · rw [f.toRetire]; exact h.queue
  · rw [f.store]; exact h.store
  · intro hcl p hp
    rw [f.client] at hcl
    rw [f.primary] at hp
    rcases f.heap p with h1 | h1
    · rw [h1]; exact h.prim hcl p hp
    · obtain ⟨l, hl⟩ := h.inv.primary_mem hp
      have := h.inv.lt p (by rw [hl]; exact List.mem_cons_self)
      omega
  · have hin : ∀ j ∈ r.1.paths, j ∈ c.paths ∧ r.1.heap j = c.heap j := by
      intro j hj
      rw [f.paths] at hj
      rcases f.heap j with h1 | h1
      · exact ⟨hj, h1⟩
      · have := h.inv.lt j hj; omega
    intro x hx y hy h1 h2
    rw [(hin x hx).2, (hin y hy).2] at h1 h2
    exact h.addr x (hin x hx).1 y (hin y hy).1 h1 h2

theorem HI.found_own {c : Conn} {s : Seen} (h : HI c s) {r : Conn × Nat} (f : Found c r) :
    Own r.1 r.2 := by
  by_cases hm : r.2 ∈ c.paths
  · exact (h.found f).own (by rw [f.paths]; exact hm)
  · exact f.own hm

/-- What an event does. -/
structure Moves (h : Hist) (e : Ev) (h' : Hist) : Prop where
  hi : HI h'.c h'.seen
  client : h'.c.client = h.c.client
  ne : h.c.paths ≠ [] → h'.c.paths ≠ []
  valid : ∀ j, (h'.c.heap j).isValid = true → (h.c.heap j).isValid = true ∨ h.Cause e j
  keep : ∀ j, (h.c.heap j).isValid = true → (h'.c.heap j).isValid = true

theorem Found.valid {c : Conn} {r : Conn × Nat} (f : Found c r) (j : Nat)
    (h : (r.1.heap j).isValid = true) : (c.heap j).isValid = true := by
  rcases f.heap j with h1 | h1
  · rw [h1] at h; exact h
  · rw [h1.2.1] at h; cases h

theorem Found.keep {c : Conn} {s : Seen} (hi : HI c s) {r : Conn × Nat} (f : Found c r) (j : Nat)
    (h : (c.heap j).isValid = true) : (r.1.heap j).isValid = true := by
  rcases f.heap j with h1 | h1
  · rw [h1]; exact h
  · rw [(hi.fresh j h1.1).1] at h; cases h

theorem head?_nil_ne {l : List Nat} {d : Nat} (h : l.head? = some d) : l ≠ [] := by
  rintro rfl; cases h

theorem Hist.recv_good {h : Hist} (hi : HI h.c h.seen) (loc rem mtu len now : Nat)
    (fs : List PFrame) (fin : Fin) (hl : h.Legal (.recv loc rem mtu len now fs fin)) :
    Good (h.step (.recv loc rem mtu len now fs fin))
      (Moves h (.recv loc rem mtu len now fs fin)) := by
  obtain ⟨hne, hok, hfin⟩ := hl
  have ff := Conn.findPath_found hi.inv loc rem mtu
  have h0 := hi.found ff
  let r := h.c.findPath loc rem mtu
  let i := r.2
  let g : Path → Path := fun p => { p with received := p.received + len }
  let c1 := r.1.modify i g
  let cause : Nat → Prop := fun j => ∃ d, PFrame.response d ∈ fs ∧ (h.seen.chal j).head? = some d
  have mg : Mild (r.1.heap i) (g (r.1.heap i)) :=
    ⟨rfl, rfl, rfl, ff.inv.ok i, fun _ _ _ _ h => h, fun h => h, ⟨rfl, rfl⟩⟩
  have p1 : FP h.seen.chal (fun _ => False) i [] [] r.1 c1 :=
    FP.modify ff.inv ff.avail h0.waits mg (fun hv => Or.inl hv)
  have h1 : HI c1 h.seen := h0.fp1 p1 (fun _ hc => hc.elim) rfl (hi.found_own ff)
  have ho1 : Own c1 i := (hi.found_own ff).same rfl p1.addr
  have hne1 : c1.paths ≠ [] := p1.ne (by rw [ff.paths]; exact hne)
  have g2 := Conn.frames_good (cause := cause) p1.inv p1.avail p1.waits hne1 now fs hok
    (fun d j hd hj => ⟨d, hd, hj⟩)
  have hlt : ∀ j, cause j → j < c1.next := by
    intro j ⟨d, _, hd⟩
    rcases Nat.lt_or_ge j c1.next with hlt | hge
    · exact hlt
    · exact absurd (h1.fresh j hge).2 (head?_nil_ne hd)
  have hback : ∀ j, (c1.heap j).isValid = true → (h.c.heap j).isValid = true := by
    intro j hj
    rcases p1.valid j hj with h2 | h2
    · exact ff.valid j h2
    · exact h2.elim
  have hforth : ∀ j, (h.c.heap j).isValid = true → (c1.heap j).isValid = true :=
    fun j hj => p1.keep j (ff.keep hi j hj)
  -- The rest, once it is known what the last part does.
  have rest : ∀ c3 : Conn, (∃ cause' : Nat → Prop,
      FP h.seen.chal cause' i fs (takenIn c1 i now fs) c1 c3 ∧ (∀ j, cause' j → j < c1.next) ∧
      ∀ j, cause' j → h.Cause (.recv loc rem mtu len now fs fin) j) →
      Moves h (.recv loc rem mtu len now fs fin)
        { c := c3, seen := Hist.observe h.c c3 h.seen (.recv loc rem mtu len now fs fin) } := by
    intro c3 ⟨cause', p3, hlt', hcause⟩
    refine ⟨?_, ?_, ?_, ?_, ?_⟩
    · have := h1.fp p3 hlt' ho1
      have e : c1.toRetire = h.c.toRetire := ff.toRetire
      rw [e] at this
      exact this
    · exact p3.client.trans ff.client
    · intro _; exact p3.ne hne1
    · intro j hj
      rcases p3.valid j hj with h2 | h2
      · exact Or.inl (hback j h2)
      · exact Or.inr (hcause j h2)
    · intro j hj
      exact p3.keep j (hforth j hj)
  have hstep : h.step (.recv loc rem mtu len now fs fin) =
      match (do
        let c ← c1.frames i now fs
        match fin with
        | .nothing => .ok c
        | .handshake => .ok (c.modify i (fun p => p.setValid now))
        | .app => c.handleMigration i now : Except Err Conn) with
      | .error x => .error x
      | .ok c => .ok { c, seen := Hist.observe h.c c h.seen (.recv loc rem mtu len now fs fin) } := rfl
  rw [hstep]
  have key : Good (do
        let c ← c1.frames i now fs
        match fin with
        | .nothing => .ok c
        | .handshake => .ok (c.modify i (fun p => p.setValid now))
        | .app => c.handleMigration i now : Except Err Conn) (fun c3 => ∃ cause' : Nat → Prop,
      FP h.seen.chal cause' i fs (takenIn c1 i now fs) c1 c3 ∧ (∀ j, cause' j → j < c1.next) ∧
      ∀ j, cause' j → h.Cause (.recv loc rem mtu len now fs fin) j) := by
    refine Good.bind g2 ?_
    intro c2 p2
    cases fin with
    | nothing => exact Good.ok ⟨cause, p2, hlt, fun j hj => Or.inl hj⟩
    | app =>
      refine (Conn.handleMigration_good (cause := cause) p2.inv p2.avail p2.waits (p2.ne hne1)
        now).mono ?_
      intro c3 p3
      refine ⟨cause, ?_, hlt, fun j hj => Or.inl hj⟩
      have := p2.trans p3
      rw [List.append_nil, List.append_nil] at this
      exact this
    | handshake =>
      refine Good.ok ⟨fun j => cause j ∨ j = i, ?_, ?_, ?_⟩
      · have p2' : FP h.seen.chal (fun j => cause j ∨ j = i) i fs (takenIn c1 i now fs) c1 c2 :=
          { p2 with valid := fun j hj => (p2.valid j hj).imp id Or.inl }
        have p3 : FP h.seen.chal (fun j => cause j ∨ j = i) i [] [] c2
            (c2.modify i (fun p => p.setValid now)) :=
          FP.modify p2.inv p2.avail p2.waits (.setValid _ now) (fun _ => Or.inr (Or.inr rfl))
        have := p2'.trans p3
        rw [List.append_nil, List.append_nil] at this
        exact this
      · rintro j (hj | hj)
        · exact hlt j hj
        · rw [hj]; exact p1.avail.1
      · rintro j (hj | hj)
        · exact Or.inl hj
        · exact Or.inr ⟨rfl, hj⟩
  refine ⟨?_, ?_⟩
  · intro h' hh
    split at hh
    · cases hh
    · rename_i c3 hc3
      have := Except.ok.inj hh
      rw [← this]
      exact rest c3 (key.1 c3 hc3)
  · intro hh
    split at hh
    · rename_i x hx
      have := Except.error.inj hh
      rw [this] at hx
      exact key.2 hx
    · cases hh

/-- Lift what is known of the connection to the history. -/
theorem Hist.step_lift {h : Hist} {e : Ev} {P : Conn → Prop} (g : Good (h.c.step e) P)
    (hm : ∀ c', P c' → Moves h e { c := c', seen := Hist.observe h.c c' h.seen e }) :
    Good (h.step e) (Moves h e) := by
  unfold Hist.step
  refine ⟨?_, ?_⟩
  · intro h' hh
    split at hh
    · cases hh
    · rename_i c3 hc3
      have := Except.ok.inj hh
      rw [← this]
      exact hm c3 (g.1 c3 hc3)
  · intro hh
    split at hh
    · rename_i x hx
      have := Except.error.inj hh
      rw [this] at hx
      exact g.2 hx
    · cases hh

theorem Hist.start_good {h : Hist} (hi : HI h.c h.seen) (loc rem mtu len : Nat) (cid : List Nat)
    (srt now : Nat) (hl : h.Legal (.start loc rem mtu len cid srt now)) :
    Good (h.step (.start loc rem mtu len cid srt now))
      (Moves h (.start loc rem mtu len cid srt now)) := by
  obtain ⟨hnil, hadd⟩ := hl
  have ff := Conn.findPath_found hi.inv loc rem mtu
  have h0 := hi.found ff
  let r := h.c.findPath loc rem mtu
  let i := r.2
  let g : Path → Path := fun p => { p with received := p.received + len }
  let c1 := r.1.modify i g
  have mg : Mild (r.1.heap i) (g (r.1.heap i)) :=
    ⟨rfl, rfl, rfl, ff.inv.ok i, fun _ _ _ _ h => h, fun h => h, ⟨rfl, rfl⟩⟩
  have p1 : FP h.seen.chal (fun _ => False) i [] [] r.1 c1 :=
    FP.modify ff.inv ff.avail h0.waits mg (fun hv => Or.inl hv)
  have h1 : HI c1 h.seen := h0.fp1 p1 (fun _ hc => hc.elim) rfl (hi.found_own ff)
  have ho1 : Own c1 i := (hi.found_own ff).same rfl p1.addr
  have hni : i ∉ h.c.paths := by rw [hnil]; exact List.not_mem_nil
  have ht : c1.isTemporary i = true := by
    unfold Conn.isTemporary
    rw [Bool.or_eq_true]
    refine Or.inr ?_
    have : c1.paths = [] := ff.paths.trans hnil
    rw [this]; rfl
  let e : Entry := { seq := 0, cid, srt }
  let cause : Nat → Prop := fun j => h.c.client = true ∧ j = i
  have key : Good (h.c.step (.start loc rem mtu len cid srt now))
      (fun c3 => FP h.seen.chal cause i [] e.seqs c1 c3) := by
    show Good (do
      let c ← c1.makePermanent i e
      if c.client then .ok (c.modify i (fun p => p.setValid now)) else .ok c) _
    refine Good.bind (Conn.makePermanent_good h1.inv p1.avail ht e) ?_
    intro c2 ⟨h2, f2, hi2, hsub, hst, hheld, hpre, _, _⟩
    have hnil2 : ∀ j ∈ c2.paths, j = i := by
      intro j hj
      rcases hsub j hj with h3 | h3
      · exact h3
      · have : c1.paths = [] := ff.paths.trans hnil
        rw [this] at h3; cases h3
    have hp2 : c2.primary = some i := by
      cases hl : c2.paths with
      | nil => rw [hl] at hi2; cases hi2
      | cons a l =>
        have := hnil2 a (by rw [hl]; exact List.mem_cons_self)
        rw [← this]; exact (h2.prim a l hl).1
    have hmk : ∀ c3, Inv c3 → c3 = { c2 with heap := c3.heap } →
        (∀ j, (c3.heap j).challenge = (c2.heap j).challenge) →
        (∀ j n d m s, (c3.heap j).st = .probing n d m s → (c2.heap j).st = .probing n d m s) →
        (∀ j, (c3.heap j).isValid = true → (c2.heap j).isValid = true ∨ cause j) →
        (∀ j, (c2.heap j).isValid = true → (c3.heap j).isValid = true) →
        (∀ j, (c3.heap j).cid = (c2.heap j).cid) →
        (h.c.client = true → (c3.heap i).isValid = true) →
        (∀ j, (c3.heap j).loc = (c2.heap j).loc ∧ (c3.heap j).rem = (c2.heap j).rem) →
        FP h.seen.chal cause i [] e.seqs c1 c3 := by
      intro c3 h3 he hch hst3 hv3 hk3 hcid3 hvi had
      have hpaths : c3.paths = c2.paths := by rw [he]
      have hw3 : Waits h.seen.chal c3 := by
        intro j n d m s hs
        have := hst3 j n d m s hs
        rw [f2.st] at this
        exact h1.waits j n d m s this
      have hi3 : i ∈ c3.paths := by rw [hpaths]; exact hi2
      refine ⟨h3, .of_mem h3 hi3, ?_, ?_, ?_, ?_, ?_, ?_, ?_, hw3, ?_, ?_, ?_, ?_, ?_, ?_, ?_⟩
      · intro _ hn; rw [hn] at hi3; cases hi3
      · rw [he]; exact f2.next
      · rw [he]; exact f2.client
      · rw [he]; exact f2.connected
      · exact (held_perm (by rw [he]) (by rw [he]) (by rw [hpaths]) hcid3).trans hheld
      · have : c3.toRetire = c2.toRetire := by rw [he]
        rw [this]; exact hpre
      · intro j hj
        rw [hpaths] at hj
        exact hsub j hj
      · intro j hj
        rcases hv3 j hj with h4 | h4
        · rw [f2.valid] at h4; exact Or.inl h4
        · exact Or.inr h4
      · intro j hj
        rw [← f2.valid] at hj; exact hk3 j hj
      · intro hcl
        refine Or.inr ⟨i, by rw [he]; exact hp2, hvi ?_⟩
        rw [← hcl]; exact ff.client.symm
      · intro j _
        rw [hch, f2.challenge]
      · intro R G hs
        rw [hch, f2.challenge]; exact hs
      · intro hs
        have : c3.store = c1.store := by rw [he]; exact hst
        rw [this]; exact hs
      · intro j
        exact ⟨(had j).1.trans (f2.addr j).1, (had j).2.trans (f2.addr j).2⟩
    split
    · rename_i hcl
      have mv : Mild (c2.heap i) ((c2.heap i).setValid now) := .setValid _ now
      have hcl : h.c.client = true := by
        have : c2.client = h.c.client := f2.client.trans ff.client
        rw [← this]; exact hcl
      have hs : (c2.modify i (fun p => p.setValid now)).heap i = (c2.heap i).setValid now :=
        modify_same _ _ _
      have ho : ∀ j, j ≠ i → (c2.modify i (fun p => p.setValid now)).heap j = c2.heap j :=
        fun j hj => modify_other _ _ hj
      refine Good.ok (hmk _ (h2.modify i mv.cid mv.primary mv.ok) rfl ?_ ?_ ?_ ?_ ?_ ?_ ?_)
      · intro j
        by_cases hj : j = i
        · rw [hj, hs]; rfl
        · rw [ho j hj]
      · intro j n d m s hst
        by_cases hj : j = i
        · rw [hj, hs] at hst; cases hst
        · rw [ho j hj] at hst; exact hst
      · intro j hv
        by_cases hj : j = i
        · exact Or.inr ⟨hcl, hj⟩
        · rw [ho j hj] at hv; exact Or.inl hv
      · intro j hv
        by_cases hj : j = i
        · rw [hj, hs]; rfl
        · rw [ho j hj]; exact hv
      · intro j
        by_cases hj : j = i
        · rw [hj, hs]; rfl
        · rw [ho j hj]
      · intro _; rw [hs]; rfl
      · intro j
        by_cases hj : j = i
        · rw [hj, hs]; exact ⟨rfl, rfl⟩
        · rw [ho j hj]; exact ⟨rfl, rfl⟩
    · rename_i hcl
      refine Good.ok (hmk c2 h2 rfl (fun _ => rfl) (fun _ _ _ _ _ h => h) (fun _ h => Or.inl h)
        (fun _ h => h) (fun _ => rfl) (fun hc => ?_) (fun _ => ⟨rfl, rfl⟩))
      have : c2.client = h.c.client := f2.client.trans ff.client
      rw [this] at hcl
      exact absurd hc hcl
  refine Hist.step_lift key ?_
  intro c3 p3
  refine ⟨?_, p3.client.trans ff.client, fun hn => absurd hnil hn, ?_, ?_⟩
  · have := h1.fp0 p3 (fun j hj => by rw [hj.2]; exact p1.avail.1) ho1
    have e1 : c1.toRetire = h.c.toRetire := ff.toRetire
    rw [e1] at this
    exact this
  · intro j hj
    rcases p3.valid j hj with h2 | h2
    · rcases p1.valid j h2 with h3 | h3
      · exact Or.inl (ff.valid j h3)
      · exact h3.elim
    · exact Or.inr h2
  · intro j hj
    exact p3.keep j (p1.keep j (ff.keep hi j hj))

theorem Hist.migrate_good {h : Hist} (hi : HI h.c h.seen) (loc rem mtu : Nat) (force : Bool)
    (now : Nat) :
    Good (h.step (.migrate loc rem mtu force now)) (Moves h (.migrate loc rem mtu force now)) := by
  have ff := Conn.findPath_found hi.inv loc rem mtu
  have h0 := hi.found ff
  let r := h.c.findPath loc rem mtu
  let i := r.2
  let cause : Nat → Prop := fun j => force = true ∧ j = i
  have key : Good (h.c.migrate loc rem mtu force now)
      (fun c3 => FP h.seen.chal cause i [] [] r.1 c3 ∧ h.c.client = true) := by
    unfold Conn.migrate
    split
    · exact Good.err (by decide)
    · rename_i hc
      have hp : h.c.primary ≠ none := fun hn => hc (Or.inr (Or.inr hn))
      have hcl : h.c.client = true := by
        cases hx : h.c.client with
        | true => rfl
        | false => exact absurd (Or.inl (by rw [hx]; simp)) hc
      have hne : r.1.paths ≠ [] := by
        intro hn
        have hn : h.c.paths = [] := ff.paths.symm.trans hn
        exact hp (hi.inv.primNone hn)
      refine Good.bind (FP.ensure (cause := cause) ff.inv ff.avail h0.waits hne) ?_
      intro c1 ⟨p1, hi1⟩
      exact (Conn.migratePath_good p1.inv hi1 p1.waits force now).mono
        (fun c3 p3 => ⟨p1.trans p3, hcl⟩)
  have key2 : Good (h.c.step (.migrate loc rem mtu force now))
      (fun c3 => (FP h.seen.chal cause i [] [] r.1 c3 ∧ h.c.client = true) ∨ c3 = h.c) := by
    unfold Conn.step
    simp only
    split
    · rename_i c3 hc3
      exact Good.ok (Or.inl (key.1 c3 hc3))
    · rename_i hp; exact absurd hp key.2
    · exact Good.ok (Or.inr rfl)
  refine Hist.step_lift key2 ?_
  rintro c3 (⟨p3, hcl⟩ | rfl)
  · refine ⟨?_, p3.client.trans ff.client, ?_, ?_, ?_⟩
    · have := h0.fp0 p3 (fun j hj => by rw [hj.2]; exact ff.avail.1) (hi.found_own ff)
      have e1 : r.1.toRetire = h.c.toRetire := ff.toRetire
      rw [e1] at this
      exact this
    · intro hn; exact p3.ne (by rw [ff.paths]; exact hn)
    · intro j hj
      rcases p3.valid j hj with h2 | h2
      · exact Or.inl (ff.valid j h2)
      · exact Or.inr ⟨hcl, h2⟩
    · intro j hj
      exact p3.keep j (ff.keep hi j hj)
  · refine ⟨?_, rfl, fun h => h, fun _ h => Or.inl h, fun _ h => h⟩
    show HI h.c { h.seen with retired := h.c.toRetire.drop h.c.toRetire.length ++ h.seen.retired }
    rw [List.drop_length]
    exact hi

theorem writeFrames_facts {p : Path} (hok : PathOk p) (room data : Nat) (full : Bool) (now : Nat) :
    (p.writeFrames room data full now).1.cid = p.cid ∧
    (p.writeFrames room data full now).1.primary = p.primary ∧
    (p.writeFrames room data full now).1.validated = p.validated ∧
    PathOk (p.writeFrames room data full now).1 ∧
    (p.writeFrames room data full now).1.challenge.toList ++
      (p.writeFrames room data full now).2.1.toList = p.challenge.toList ∧
    (((p.writeFrames room data full now).2.2 = none ∧
      (p.writeFrames room data full now).1.st = p.st) ∨
      ∃ n, p.st = .needed n ∧ (p.writeFrames room data full now).2.2 = some data ∧
        (p.writeFrames room data full now).1.st = .probing n data full now) := by
  have key : ∀ x, p.writeFrames room data full now = x →
      x.1.cid = p.cid ∧ x.1.primary = p.primary ∧ x.1.validated = p.validated ∧ PathOk x.1 ∧
      x.1.challenge.toList ++ x.2.1.toList = p.challenge.toList ∧
      ((x.2.2 = none ∧ x.1.st = p.st) ∨
      ∃ n, p.st = .needed n ∧ x.2.2 = some data ∧ x.1.st = .probing n data full now) := by
    intro x hx
    unfold Path.writeFrames at hx
    simp only at hx
    split at hx
    · rw [← hx]
      exact ⟨rfl, rfl, rfl, hok, List.append_nil _, Or.inl ⟨rfl, rfl⟩⟩
    · have okp : PathOk { p with challenge := none } := hok
      generalize (if p.challenge.isSome = true then room - 9 else room) = room' at hx
      split at hx
      · rw [← hx]
        exact ⟨rfl, rfl, rfl, okp, rfl, Or.inl ⟨rfl, rfl⟩⟩
      · split at hx
        · rename_i n hn
          rw [← hx]
          refine ⟨rfl, rfl, rfl, ⟨(fun n h => by cases h), fun n' d m s h => ?_,
            (fun h => by cases h)⟩, rfl, Or.inr ⟨n, hn, rfl, rfl⟩⟩
          have h : PSt.probing n data full now = PSt.probing n' d m s := h
          obtain ⟨rfl, _⟩ := PSt.probing.inj h
          exact hok.1 n hn
        · rw [← hx]
          exact ⟨rfl, rfl, rfl, okp, rfl, Or.inl ⟨rfl, rfl⟩⟩
  exact key _ rfl

theorem writeFrames_addr (p : Path) (room data : Nat) (full : Bool) (now : Nat) :
    (p.writeFrames room data full now).1.loc = p.loc ∧
    (p.writeFrames room data full now).1.rem = p.rem := by
  unfold Path.writeFrames
  dsimp only
  generalize (if p.challenge.isSome = true then room - 9 else room) = room'
  split
  · exact ⟨rfl, rfl⟩
  · split
    · exact ⟨rfl, rfl⟩
    · split <;> exact ⟨rfl, rfl⟩

theorem Conn.selectPath_mem {c : Conn} (h : Inv c) {i : Nat} (hs : c.selectPath = some i) :
    i ∈ c.paths := by
  unfold Conn.selectPath at hs
  split at hs
  · rename_i j hj
    obtain rfl := Option.some.inj hs
    exact List.mem_of_find?_eq_some hj
  · obtain ⟨l, hl⟩ := h.primary_mem hs
    rw [hl]; exact List.mem_cons_self

theorem Hist.write_good {h : Hist} (hi : HI h.c h.seen) (room data : Nat) (full : Bool)
    (now : Nat) :
    Good (h.step (.write room data full now)) (Moves h (.write room data full now)) := by
  cases hs : h.c.selectPath with
  | none =>
    refine Hist.step_lift (P := fun c' => c' = h.c) ?_ ?_
    · unfold Conn.step; rw [hs]; exact Good.ok rfl
    · rintro c' rfl
      refine ⟨?_, rfl, fun h => h, fun _ h => Or.inl h, fun _ h => h⟩
      unfold Hist.observe; rw [hs]; exact hi
  | some i =>
    have him := Conn.selectPath_mem hi.inv hs
    obtain ⟨w1, w2, w3, w4, w5, w6⟩ := writeFrames_facts (hi.inv.ok i) room data full now
    let f : Path → Path := fun p => (p.writeFrames room data full now).1
    refine Hist.step_lift (P := fun c' => c' = h.c.modify i f) ?_ ?_
    · unfold Conn.step; rw [hs]; exact Good.ok rfl
    · rintro c' rfl
      have hsm : (h.c.modify i f).heap i = f (h.c.heap i) := modify_same _ _ _
      have ho : ∀ j, j ≠ i → (h.c.modify i f).heap j = h.c.heap j := fun j hj => modify_other _ _ hj
      have hv : ∀ j, ((h.c.modify i f).heap j).isValid = (h.c.heap j).isValid := by
        intro j
        by_cases hj : j = i
        · rw [hj, hsm]
          show (f (h.c.heap i)).validated.isSome = (h.c.heap i).validated.isSome
          exact congrArg _ w3
        · rw [ho j hj]
      refine ⟨?_, rfl, fun h => h, fun j hj => Or.inl (by rw [hv] at hj; exact hj),
        fun j hj => by rw [hv]; exact hj⟩
      have hinv : Inv (h.c.modify i f) := hi.inv.modify i w1 w2 w4
      have hobs : Hist.observe h.c (h.c.modify i f) h.seen (.write room data full now) =
          { h.seen with
            resp := note h.seen.resp i
              ((h.c.heap i).writeFrames room data full now).2.1.toList
            chal := note h.seen.chal i
              ((h.c.heap i).writeFrames room data full now).2.2.toList } := by
        unfold Hist.observe; rw [hs]
      rw [hobs]
      refine ⟨hinv, ?_, ?_, ?_, ?_, hi.queue, hi.store, ?_, ?_⟩
      · intro j n d m s hst
        show (note h.seen.chal i _ j).head? = some d
        unfold note
        by_cases hj : j = i
        · rw [if_pos hj]
          rw [hj, hsm] at hst
          have hst : ((h.c.heap i).writeFrames room data full now).1.st = .probing n d m s := hst
          rcases w6 with ⟨h1, h2⟩ | ⟨n', h1, h2, h3⟩
          · rw [h2] at hst
            rw [h1, hj]
            exact hi.waits i n d m s hst
          · rw [h3] at hst
            obtain ⟨_, rfl, _⟩ := PSt.probing.inj hst
            rw [h2]; rfl
        · rw [if_neg hj]
          rw [ho j hj] at hst
          exact hi.waits j n d m s hst
      · intro j
        show (((h.c.modify i f).heap j).challenge.toList ++ note h.seen.resp i _ j).Sublist _
        unfold note
        by_cases hj : j = i
        · rw [if_pos hj, hj, hsm]
          show ((f (h.c.heap i)).challenge.toList ++ (_ ++ h.seen.resp i)).Sublist _
          rw [← List.append_assoc]
          have w5 : (f (h.c.heap i)).challenge.toList ++
            ((h.c.heap i).writeFrames room data full now).2.1.toList = _ := w5
          rw [w5]
          exact hi.echo i
        · rw [if_neg hj, ho j hj]
          exact hi.echo j
      · intro j hj
        refine ⟨by rw [hv]; exact (hi.fresh j hj).1, ?_⟩
        show note h.seen.chal i _ j = []
        unfold note
        have hlt := hi.inv.lt i him
        have hj : h.c.next ≤ j := hj
        rw [if_neg (by omega)]
        exact (hi.fresh j hj).2
      · have e1 : inUse (h.c.modify i f) = inUse h.c := by
          unfold inUse
          show h.c.paths.flatMap _ = _
          rw [List.flatMap, List.flatMap]
          congr 1
          apply List.map_congr_left
          intro j _
          by_cases hj : j = i
          · rw [hj, hsm]; exact retired_of_cid w1
          · rw [ho j hj]
        show h.seen.added.Perm (h.c.store.map (·.seq) ++ inUse (h.c.modify i f) ++ h.seen.retired)
        rw [e1]; exact hi.acct
      · intro hcl p hp
        rw [hv]; exact hi.prim hcl p hp
      · have had : ∀ j, ((h.c.modify i f).heap j).loc = (h.c.heap j).loc ∧
            ((h.c.modify i f).heap j).rem = (h.c.heap j).rem := by
          intro j
          by_cases hj : j = i
          · rw [hj, hsm]; exact writeFrames_addr _ _ _ _ _
          · rw [ho j hj]; exact ⟨rfl, rfl⟩
        intro x hx y hy h1 h2
        rw [(had x).1, (had y).1] at h1
        rw [(had x).2, (had y).2] at h2
        exact hi.addr x hx y hy h1 h2

/-- A change to the queue of connection IDs to retire. -/
theorem HI.queueChange {c : Conn} {s : Seen} (h : HI c s) (q out acked : List Nat)
    (hq : ∀ x, x ∈ s.retired ↔ x ∈ q ∨ x ∈ out ∨ x ∈ acked) :
    HI { c with toRetire := q } { s with out, acked } :=
  ⟨{ h.inv with }, h.waits, h.echo, h.fresh, h.acct, hq, h.store, h.prim, h.addr⟩

theorem mem_dropLast_or {l : List Nat} {x : Nat} :
    x ∈ l ↔ x ∈ l.dropLast ∨ x ∈ l.getLast?.toList := by
  rcases List.eq_nil_or_concat l with rfl | ⟨l, a, rfl⟩
  · simp
  · simp [or_comm]

theorem mem_erase_or {l : List Nat} {q x : Nat} (hq : q ∈ l) : x ∈ l ↔ x = q ∨ x ∈ l.erase q := by
  rw [(List.perm_cons_erase hq).mem_iff, List.mem_cons]

theorem Hist.step_good {h : Hist} (hi : HI h.c h.seen) {e : Ev} (hl : h.Legal e) :
    Good (h.step e) (Moves h e) := by
  have queue : ∀ (q out acked : List Nat), Good (h.c.step e) (fun c' =>
        c' = { h.c with toRetire := q } ) →
      (∀ c', Hist.observe h.c c' h.seen e = { h.seen with out, acked }) →
      (∀ x, x ∈ h.seen.retired ↔ x ∈ q ∨ x ∈ out ∨ x ∈ acked) → Good (h.step e) (Moves h e) := by
    intro q out acked hg hobs hq
    refine Hist.step_lift hg ?_
    rintro c' rfl
    refine ⟨?_, rfl, fun h => h, fun _ h => Or.inl h, fun _ h => h⟩
    rw [hobs]
    exact hi.queueChange q out acked hq
  cases e with
  | start loc rem mtu len cid srt now => exact Hist.start_good hi _ _ _ _ _ _ _ hl
  | recv loc rem mtu len now fs fin => exact Hist.recv_good hi _ _ _ _ _ _ _ hl
  | migrate loc rem mtu force now => exact Hist.migrate_good hi _ _ _ _ _
  | write room data full now => exact Hist.write_good hi _ _ _ _
  | connected now =>
    obtain ⟨hne, _⟩ := hl
    by_cases hcl : h.c.client = true
    · refine Hist.step_lift (P := fun c' => c' = { h.c with connected := true }) ?_ ?_
      · show Good (h.c.setConnected now) _
        unfold Conn.setConnected
        rw [if_pos hcl]
        exact Good.ok rfl
      · rintro c' rfl
        exact ⟨⟨{ hi.inv with }, hi.waits, hi.echo, hi.fresh, hi.acct, hi.queue, hi.store, hi.prim,
          hi.addr⟩, rfl,
          fun h => h, fun _ h => Or.inl h, fun _ h => h⟩
    · cases hp : h.c.primary with
      | none =>
        cases hpl : h.c.paths with
        | nil => exact absurd hpl hne
        | cons a l =>
          have := (hi.inv.prim a l hpl).1
          rw [hp] at this; cases this
      | some p =>
        refine Hist.step_lift (P := fun c' => c' =
          { h.c.modify p (fun q => q.setValid now) with connected := true }) ?_ ?_
        · show Good (h.c.setConnected now) _
          unfold Conn.setConnected
          rw [if_neg hcl, hp]
          exact Good.ok rfl
        · rintro c' rfl
          obtain ⟨l, hpl⟩ := hi.inv.primary_mem hp
          have hm : p ∈ h.c.paths := by rw [hpl]; exact List.mem_cons_self
          have p1 : FP h.seen.chal (fun j => j = p) p [] [] h.c
              (h.c.modify p (fun q => q.setValid now)) :=
            FP.modify hi.inv (.of_mem hi.inv hm) hi.waits (.setValid _ now) (fun _ => Or.inr rfl)
          have h1 := hi.fp1 p1 (fun j hj => by rw [hj]; exact hi.inv.lt p hm) rfl (hi.own hm)
          refine ⟨⟨{ h1.inv with }, h1.waits, h1.echo, h1.fresh, h1.acct, h1.queue, h1.store, h1.prim,
            h1.addr⟩,
            rfl, fun h => h, fun j hj => ?_, p1.keep⟩
          rcases p1.valid j hj with h2 | h2
          · exact Or.inl h2
          · refine Or.inr ⟨?_, by rw [h2]; exact hp⟩
            cases hx : h.c.client with
            | true => exact absurd hx hcl
            | false => rfl
  | timer now pto =>
    refine Hist.step_lift (Conn.processTimeout_good hi.inv hi.waits hl now pto) ?_
    rintro c' ⟨i, him, p⟩
    exact ⟨hi.fp0 p (fun _ hc => hc.elim) (hi.own him), p.client, p.ne,
      fun j hj => (p.valid j hj).imp id False.elim, p.keep⟩
  | ecn i ec =>
    obtain ⟨him, _⟩ := hl
    refine Hist.step_lift (P := fun c' => c' = h.c.modify i (fun p => { p with ecn := ec }))
      (Good.ok rfl) ?_
    rintro c' rfl
    have p : FP h.seen.chal (fun _ => False) i [] [] h.c
        (h.c.modify i (fun p => { p with ecn := ec })) :=
      FP.modify hi.inv (.of_mem hi.inv him) hi.waits
        ⟨rfl, rfl, rfl, hi.inv.ok i, fun _ _ _ _ h => h, fun h => h, ⟨rfl, rfl⟩⟩ (fun hv => Or.inl hv)
    exact ⟨hi.fp1 p (fun _ hc => hc.elim) rfl (hi.own him), rfl, fun h => h,
      fun j hj => (p.valid j hj).imp id False.elim, p.keep⟩
  | sendRetire =>
    refine queue h.c.toRetire.dropLast (h.c.toRetire.getLast?.toList ++ h.seen.out) h.seen.acked
      (Good.ok rfl) (fun _ => rfl) ?_
    intro x
    rw [hi.queue x, mem_dropLast_or (l := h.c.toRetire), List.mem_append]
    constructor
    · rintro ((h1 | h1) | h1 | h1)
      · exact Or.inl h1
      · exact Or.inr (Or.inl (Or.inl h1))
      · exact Or.inr (Or.inl (Or.inr h1))
      · exact Or.inr (Or.inr h1)
    · rintro (h1 | (h1 | h1) | h1)
      · exact Or.inl (Or.inl h1)
      · exact Or.inl (Or.inr h1)
      · exact Or.inr (Or.inl h1)
      · exact Or.inr (Or.inr h1)
  | lostRetire q =>
    have hl : q ∈ h.seen.out := hl
    refine queue (h.c.toRetire ++ [q]) (h.seen.out.erase q) h.seen.acked
      (Good.ok rfl) (fun _ => rfl) ?_
    intro x
    rw [hi.queue x, mem_erase_or hl, List.mem_append, List.mem_singleton]
    constructor
    · rintro (h1 | (h1 | h1) | h1)
      · exact Or.inl (Or.inl h1)
      · exact Or.inl (Or.inr h1)
      · exact Or.inr (Or.inl h1)
      · exact Or.inr (Or.inr h1)
    · rintro ((h1 | h1) | h1 | h1)
      · exact Or.inl h1
      · exact Or.inr (Or.inl (Or.inl h1))
      · exact Or.inr (Or.inl (Or.inr h1))
      · exact Or.inr (Or.inr h1)
  | ackRetire q =>
    have hl : q ∈ h.seen.out ∨ q ∈ h.c.toRetire := hl
    refine queue (h.c.toRetire.filter (fun x => x ≠ q)) (h.seen.out.erase q) (q :: h.seen.acked)
      (Good.ok rfl) (fun _ => rfl) ?_
    intro x
    rw [hi.queue x, List.mem_filter, List.mem_cons, decide_eq_true_eq]
    by_cases hx : x = q
    · subst hx
      constructor
      · intro _; exact Or.inr (Or.inr (Or.inl rfl))
      · intro _
        rcases hl with h1 | h1
        · exact Or.inr (Or.inl h1)
        · exact Or.inl h1
    · rw [List.mem_erase_of_ne hx]
      constructor
      · rintro (h1 | h1 | h1)
        · exact Or.inl ⟨h1, hx⟩
        · exact Or.inr (Or.inl h1)
        · exact Or.inr (Or.inr (Or.inr h1))
      · rintro (h1 | h1 | h1 | h1)
        · exact Or.inl h1.1
        · exact Or.inr (Or.inl h1)
        · exact absurd h1 hx
        · exact Or.inr (Or.inr h1)

theorem Hist.init_hi (client : Bool) : HI (Hist.init client).c (Hist.init client).seen := by
  refine ⟨⟨List.nodup_nil, Nat.zero_le _, (fun _ h => by cases h), (fun _ _ h => by cases h),
    fun _ => rfl, (fun _ h => by cases h), fun _ => ?_, (fun _ h => by cases h)⟩, ?_, fun _ => List.Sublist.refl _,
    fun _ _ => ⟨rfl, rfl⟩, List.Perm.refl _, fun q => ?_, Nat.zero_lt_succ _, (fun _ _ h => by cases h),
    (fun _ h => by cases h)⟩
  · refine ⟨(fun n hn => ?_), (fun _ _ _ _ h => by cases h), (fun h => by cases h)⟩
    cases hn; decide
  · intro j n d m s hs; cases hs
  · simp [Hist.init, Conn.init]

theorem Hist.Reached.hi {client : Bool} {h : Hist} (hr : Hist.Reached client h) :
    HI h.c h.seen ∧ h.c.client = client := by
  induction hr with
  | init => exact ⟨Hist.init_hi client, rfl⟩
  | step _ hl hs ih =>
    have := (Hist.step_good ih.1 hl).1 _ hs
    exact ⟨this.hi, this.client.trans ih.2⟩

end Neqo.Path
