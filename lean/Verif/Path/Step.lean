import Verif.Path.Inv

/-!
What the events do to a connection's paths.
-/

namespace Neqo.Path

/-- A path that waits for the answer to a challenge waits for the answer to the last one. -/
def Waits (chal : Nat → List Nat) (c : Conn) : Prop :=
  ∀ j n d m s, (c.heap j).st = .probing n d m s → (chal j).head? = some d

/-- What frames do. -/
structure FP (chal : Nat → List Nat) (cause : Nat → Prop) (i : Nat) (fs : List PFrame)
    (tk : List Nat) (c c' : Conn) : Prop where
  inv : Inv c'
  avail : Avail c' i
  ne : c.paths ≠ [] → c'.paths ≠ []
  next : c'.next = c.next
  client : c'.client = c.client
  connected : c'.connected = c.connected
  held : (held c').Perm (tk ++ held c)
  pre : c.toRetire <+: c'.toRetire
  mem : ∀ j ∈ c'.paths, j = i ∨ j ∈ c.paths
  waits : Waits chal c'
  valid : ∀ j, (c'.heap j).isValid = true → (c.heap j).isValid = true ∨ cause j
  keep : ∀ j, (c.heap j).isValid = true → (c'.heap j).isValid = true
  prim : c.client = true →
    c'.primary = c.primary ∨ ∃ p, c'.primary = some p ∧ (c'.heap p).isValid = true
  chalOther : ∀ j, j ≠ i → (c'.heap j).challenge = (c.heap j).challenge
  chalSelf : ∀ R G : List Nat, ((c.heap i).challenge.toList ++ R).Sublist G →
    ((c'.heap i).challenge.toList ++ R).Sublist (challenges fs ++ G)
  store : c.store.length < activeLimit → c'.store.length < activeLimit
  addr : ∀ j, (c'.heap j).loc = (c.heap j).loc ∧ (c'.heap j).rem = (c.heap j).rem

theorem Frame.addr {c c' : Conn} (h : Frame c c') (j : Nat) :
    (c'.heap j).loc = (c.heap j).loc ∧ (c'.heap j).rem = (c.heap j).rem := by
  have h1 : (Path.core (c'.heap j)).loc = (Path.core (c.heap j)).loc := by rw [h.core j]
  have h2 : (Path.core (c'.heap j)).rem = (Path.core (c.heap j)).rem := by rw [h.core j]
  exact ⟨h1, h2⟩

theorem Frame.st {c c' : Conn} (h : Frame c c') (j : Nat) : (c'.heap j).st = (c.heap j).st := by
  have := congrArg Path.st (h.core j); exact this

theorem Frame.challenge {c c' : Conn} (h : Frame c c') (j : Nat) :
    (c'.heap j).challenge = (c.heap j).challenge := by
  have : (Path.core (c'.heap j)).challenge = (Path.core (c.heap j)).challenge := by rw [h.core j]
  exact this

theorem Frame.valid {c c' : Conn} (h : Frame c c') (j : Nat) :
    (c'.heap j).isValid = (c.heap j).isValid := by
  have : (Path.core (c'.heap j)).isValid = (Path.core (c.heap j)).isValid := by rw [h.core j]
  exact this

theorem Waits.frame {chal : Nat → List Nat} {c c' : Conn} (h : Waits chal c) (f : Frame c c') :
    Waits chal c' := by
  intro j n d m s hs
  rw [f.st] at hs
  exact h j n d m s hs

theorem challenges_append (a b : List PFrame) :
    challenges (a ++ b) = challenges b ++ challenges a := by
  induction a with
  | nil => rw [List.nil_append, challenges, List.append_nil]
  | cons f a ih =>
    cases f <;> simp only [List.cons_append, challenges, ih, List.append_assoc]

theorem FP.trans {chal : Nat → List Nat} {cause : Nat → Prop} {i : Nat} {f1 f2 : List PFrame} {t1 t2 : List Nat}
    {a b c : Conn} (h : FP chal cause i f1 t1 a b) (h' : FP chal cause i f2 t2 b c) :
    FP chal cause i (f1 ++ f2) (t1 ++ t2) a c := by
  refine ⟨h'.inv, h'.avail, fun hn => h'.ne (h.ne hn), h'.next.trans h.next,
    h'.client.trans h.client, h'.connected.trans h.connected, ?_, h.pre.trans h'.pre, ?_, h'.waits,
    ?_, fun j hj => h'.keep j (h.keep j hj), ?_, ?_, ?_, fun hs => h'.store (h.store hs),
    fun j => ⟨(h'.addr j).1.trans (h.addr j).1, (h'.addr j).2.trans (h.addr j).2⟩⟩
  · refine h'.held.trans ((h.held.append_left t2).trans ?_)
    rw [← List.append_assoc]
    exact List.Perm.append_right _ List.perm_append_comm
  · intro j hj
    rcases h'.mem j hj with h1 | h1
    · exact Or.inl h1
    · exact h.mem j h1
  · intro j hj
    rcases h'.valid j hj with h1 | h1
    · exact h.valid j h1
    · exact Or.inr h1
  · intro hcl
    rcases h'.prim (h.client.trans hcl) with h1 | h1
    · rcases h.prim hcl with h2 | ⟨p, h2, h3⟩
      · exact Or.inl (h1.trans h2)
      · exact Or.inr ⟨p, h1.trans h2, h'.keep p h3⟩
    · exact Or.inr h1
  · intro j hj
    exact (h'.chalOther j hj).trans (h.chalOther j hj)
  · intro R G hs
    rw [challenges_append, List.append_assoc]
    exact h'.chalSelf R _ (h.chalSelf R G hs)

theorem FP.refl {chal : Nat → List Nat} {cause : Nat → Prop} {i : Nat} {c : Conn} (h : Inv c) (ha : Avail c i)
    (hw : Waits chal c) : FP chal cause i [] [] c c :=
  ⟨h, ha, fun h => h, rfl, rfl, rfl, List.Perm.refl _, List.prefix_refl _, fun _ hj => Or.inr hj, hw,
    fun _ hj => Or.inl hj, fun _ hj => hj, fun _ => Or.inl rfl, fun _ _ => rfl,
    fun _ _ hs => hs, fun hs => hs, fun _ => ⟨rfl, rfl⟩⟩

/-- A path whose object is not in use is not primary. -/
theorem avail_of_primary {c c' : Conn} (h : Inv c) (h' : Inv c') {i : Nat} (ha : Avail c i)
    (hn : c'.next = c.next) (hp : c'.primary = c.primary)
    (hf : (c'.heap i).primary = (c.heap i).primary) : Avail c' i := by
  refine ⟨by rw [hn]; exact ha.1, fun hni => ?_⟩
  rw [hf]
  cases hb : (c.heap i).primary with
  | false => rfl
  | true =>
    by_cases hi : i ∈ c.paths
    · have := h.pre.prim i hi hb
      rw [← hp] at this
      obtain ⟨l, hl⟩ := h'.primary_mem this
      exact absurd (by rw [hl]; exact List.mem_cons_self) hni
    · rw [ha.2 hi] at hb; cases hb

theorem insertSeq_perm (e : Entry) (l : List Entry) : (insertSeq e l).Perm (e :: l) := by
  induction l with
  | nil => exact List.Perm.refl _
  | cons a l ih =>
    rw [insertSeq]
    split
    · exact List.Perm.refl _
    · exact (List.Perm.cons a ih).trans (List.Perm.swap e a l)

theorem Conn.newConnectionId_good {chal : Nat → List Nat} {cause : Nat → Prop} {c : Conn} (h : Inv c) {i : Nat}
    (ha : Avail c i) (hw : Waits chal c) {e : Entry} {rp : Nat} (hf : Hist.FrameOk (.newCid e rp)) :
    Good (c.newConnectionId e rp) (fun c' =>
      FP chal cause i [.newCid e rp] (if c.store.any (fun x => x = e) then [] else [e.seq]) c c' ∧
      (∀ x ∈ c'.store, rp ≤ x.seq) ∧
      (∀ j ∈ c'.paths, ∃ x, (c'.heap j).cid = some x ∧ (x.cid = [] ∨ rp ≤ x.seq)) ∧
      c'.store.length < activeLimit ∧ c'.toRetire.length ≤ maxRetireQueue) := by
  obtain ⟨f1, f2, f3⟩ := hf
  unfold Conn.newConnectionId
  apply Good.bind (P := fun s => e ∈ s ∧ (∀ x ∈ s, x.cid ≠ [] ∧ x.seq < 2 ^ 62) ∧
    (s.map (·.seq)).Perm ((if c.store.any (fun x => x = e) then [] else [e.seq]) ++
      c.store.map (·.seq)))
  · unfold addRemote
    split
    · rename_i hany
      refine Good.ok ⟨?_, h.storeNe, List.Perm.refl _⟩
      obtain ⟨x, hx, he⟩ := List.any_eq_true.mp hany
      rw [decide_eq_true_eq] at he
      exact he ▸ hx
    · rename_i hany
      split
      · exact Good.err (by decide)
      · have hp := insertSeq_perm e c.store
        refine Good.ok ⟨hp.mem_iff.mpr List.mem_cons_self, ?_, hp.map _⟩
        intro x hx
        rcases List.mem_cons.mp (hp.mem_iff.mp hx) with rfl | hx
        · exact ⟨f2, f3⟩
        · exact h.storeNe x hx
  · intro s ⟨hs, hne, hperm⟩
    have h1 : Inv { c with store := s } := { h with storeNe := hne }
    refine Good.bind (Conn.retireCids_good h1 ⟨e, hs, f1⟩) ?_
    intro c' ⟨h', f', hh, hpre, hprim, hmem, hflag, hnonempty, hst, hcid⟩
    split
    · exact Good.err (by decide)
    · split
      · exact Good.err (by decide)
      · rename_i hl hl2
        have f : Frame c c' := ⟨f'.core, f'.next, f'.client, f'.connected⟩
        refine Good.ok ⟨?_, hst, hcid, by omega, by omega⟩
        refine ⟨h', avail_of_primary h h' ha f.next hprim (hflag i), hnonempty, f.next, f.client,
          f.connected, ?_, hpre, fun j hj => Or.inr (hmem j hj), hw.frame f, ?_, ?_,
          fun _ => Or.inl hprim, fun j _ => f.challenge j, ?_, (fun _ => by omega), f.addr⟩
        · refine hh.trans ?_
          show (s.map (·.seq) ++ inUse c ++ c.toRetire).Perm
            (_ ++ (c.store.map (·.seq) ++ inUse c ++ c.toRetire))
          rw [← List.append_assoc, ← List.append_assoc]
          exact List.Perm.append_right _ (List.Perm.append_right _ hperm)
        · intro j hj; rw [f.valid] at hj; exact Or.inl hj
        · intro j hj; rw [f.valid]; exact hj
        · intro R G hs; rw [f.challenge]; exact hs

theorem Conn.pathChallenge_good {chal : Nat → List Nat} {cause : Nat → Prop} {c : Conn} (h : Inv c) {i : Nat}
    (ha : Avail c i) (hw : Waits chal c) (hne : c.paths ≠ []) (d : Nat) :
    Good (c.pathChallenge i d) (FP chal cause i [.challenge d] [] c) := by
  unfold Conn.pathChallenge
  refine Good.bind (Conn.ensurePermanent_good h ha) ?_
  intro c1 ⟨h1, f1, hi, hmem, hheld, hpre, hprim, hsl⟩
  let g : Path → Path := fun p => { p with challenge := some d }
  have h2 : Inv (c1.modify i g) := h1.modify i rfl rfl (h1.ok i)
  have hv : ∀ j, ((c1.modify i g).heap j).isValid = (c1.heap j).isValid := by
    intro j
    by_cases hj : j = i
    · rw [hj, modify_same]; rfl
    · rw [modify_other _ _ hj]
  have hst : ∀ j, ((c1.modify i g).heap j).st = (c1.heap j).st := by
    intro j
    by_cases hj : j = i
    · rw [hj, modify_same]
    · rw [modify_other _ _ hj]
  refine Good.ok ⟨h2, ⟨h2.lt i hi, fun hn => absurd hi hn⟩, ?_, f1.next, f1.client, f1.connected, ?_,
    hpre, hmem, ?_, ?_, ?_, fun _ => Or.inl (hprim hne), ?_, ?_,
    (fun hs => Nat.lt_of_le_of_lt hsl hs), ?_⟩
  · intro _ hn
    have hn : c1.paths = [] := hn
    rw [hn] at hi; cases hi
  · show (Path.held (c1.modify i g)).Perm _
    rw [held_modify (f := g) i rfl]; exact hheld
  · intro j n d m s hs
    rw [hst, f1.st] at hs
    exact hw j n d m s hs
  · intro j hj
    rw [hv, f1.valid] at hj; exact Or.inl hj
  · intro j hj
    rw [hv, f1.valid]; exact hj
  · intro j hj
    rw [modify_other _ _ hj]; exact f1.challenge j
  · intro R G hs
    rw [modify_same]
    show ([d] ++ R).Sublist ([] ++ [d] ++ G)
    have hR : R.Sublist G := (List.sublist_append_right _ _).trans hs
    exact hR.cons_cons d
  · intro j
    by_cases hj : j = i
    · rw [hj, modify_same]; exact f1.addr i
    · rw [modify_other _ _ hj]; exact f1.addr j

theorem probe_addr (p : Path) : p.probe.loc = p.loc ∧ p.probe.rem = p.rem := by
  unfold Path.probe; split
  · split <;> exact ⟨rfl, rfl⟩
  · exact ⟨rfl, rfl⟩

theorem pathResponse_addr (p : Path) (d now : Nat) :
    (p.pathResponse d now).1.loc = p.loc ∧ (p.pathResponse d now).1.rem = p.rem := by
  unfold Path.pathResponse
  split
  · split
    · dsimp only
      split
      · exact ⟨rfl, rfl⟩
      · exact probe_addr _
    · exact ⟨rfl, rfl⟩
  · exact ⟨rfl, rfl⟩

theorem Conn.pathResponse_good {chal : Nat → List Nat} {cause : Nat → Prop} {c : Conn}
    (h : Inv c) {i : Nat} (ha : Avail c i) (hw : Waits chal c) (d now : Nat)
    (hc : ∀ j, (chal j).head? = some d → cause j) :
    Good (c.pathResponse d now) (FP chal cause i [.response d] [] c) := by
  unfold Conn.pathResponse
  split
  · refine Good.ok ?_
    have := FP.refl (cause := cause) h ha hw
    exact { this with
      valid := fun j hj => Or.inl hj
      chalSelf := fun R G hs => hs }
  · rename_i j hfind
    have hj : j ∈ c.paths := List.mem_of_find?_eq_some hfind
    have hacc := List.find?_some hfind
    obtain ⟨k1, k2, k3, k4, k5, _⟩ := pathResponse_facts (h.ok j) d now
    obtain ⟨⟨n, m, s, hst⟩, hval, hnp⟩ := k5 hacc
    let g : Path → Path := fun p => (p.pathResponse d now).1
    have h1 : Inv (c.modify j g) := h.modify j k2 k3 k1
    have hv : ∀ x, x ≠ j → (c.modify j g).heap x = c.heap x := fun x hx => modify_other _ _ hx
    have hvj : (c.modify j g).heap j = g (c.heap j) := modify_same _ _ _
    have hflag : ∀ x, ((c.modify j g).heap x).primary = (c.heap x).primary := by
      intro x
      by_cases hx : x = j
      · rw [hx, hvj]; exact k3
      · rw [hv x hx]
    have hw1 : Waits chal (c.modify j g) := by
      intro x n d m s hs
      by_cases hx : x = j
      · rw [hx, hvj] at hs
        exact absurd hs (hnp n d m s)
      · rw [hv x hx] at hs; exact hw x n d m s hs
    have hch : ∀ x, ((c.modify j g).heap x).challenge = (c.heap x).challenge := by
      intro x
      by_cases hx : x = j
      · rw [hx, hvj]; exact k4
      · rw [hv x hx]
    have had : ∀ x, ((c.modify j g).heap x).loc = (c.heap x).loc ∧
        ((c.modify j g).heap x).rem = (c.heap x).rem := by
      intro x
      by_cases hx : x = j
      · rw [hx, hvj]; exact pathResponse_addr _ _ _
      · rw [hv x hx]; exact ⟨rfl, rfl⟩
    have base : FP chal cause i [.response d] [] c (c.modify j g) := by
      refine ⟨h1, avail_of_primary h h1 ha rfl rfl (hflag i), fun hn => hn, rfl, rfl, rfl, ?_,
        List.prefix_refl _, fun x hx => Or.inr hx, hw1, ?_, ?_, fun _ => Or.inl rfl,
        fun x _ => hch x, ?_, (fun hs => hs), had⟩
      · show (Path.held (c.modify j g)).Perm _
        rw [held_modify (f := g) j k2]; exact List.Perm.refl _
      · intro x hx
        by_cases hxj : x = j
        · rw [hxj]
          exact Or.inr (hc j (hw j n d m s hst))
        · rw [hv x hxj] at hx; exact Or.inl hx
      · intro x hx
        by_cases hxj : x = j
        · rw [hxj, hvj]; exact hval
        · rw [hv x hxj]; exact hx
      · intro R G hs
        rw [hch]; exact hs
    show Good (if (c.modify j g).target = some j then
      { c.modify j g with target := none }.selectPrimary j else .ok (c.modify j g)) _
    split
    · have h1' : Inv { c.modify j g with target := none } := { h1 with }
      refine (Conn.selectPrimary_good h1'.pre hj).mono ?_
      intro c2 ⟨h2, f2, hperm, hp2, hst2, hret2, _, hcid2, hoff⟩
      have hav : (c2.heap j).isValid = true := by
        rw [f2.valid j]
        show ((c.modify j g).heap j).isValid = true
        rw [hvj]; exact hval
      refine ⟨h2, ?_, ?_, f2.next, f2.client, f2.connected, ?_, ?_, ?_, Waits.frame (c := { c.modify j g with target := none }) hw1 f2, ?_, ?_,
        fun _ => Or.inr ⟨j, hp2, hav⟩, ?_, ?_, by rw [hst2]; exact fun hs => hs,
        fun x => ⟨(f2.addr x).1.trans (had x).1, (f2.addr x).2.trans (had x).2⟩⟩
      · refine ⟨by rw [f2.next]; exact ha.1, fun hn => ?_⟩
        have hni : i ∉ c.paths := fun hi => hn (hperm.mem_iff.mpr hi)
        exact hoff i ((hflag i).trans (ha.2 hni)) hni
      · intro hn hn2
        rw [hn2] at hperm
        exact hn hperm.symm.eq_nil
      · refine (held_perm hst2 hret2 hperm hcid2).trans ?_
        exact base.held
      · rw [hret2]; exact List.prefix_refl _
      · intro x hx; exact Or.inr (hperm.mem_iff.mp hx)
      · intro x hx
        rw [f2.valid] at hx
        exact base.valid x hx
      · intro x hx
        rw [f2.valid]
        exact base.keep x hx
      · intro x hx
        rw [f2.challenge]; exact hch x
      · intro R G hs
        rw [f2.challenge]
        show (((c.modify j g).heap i).challenge.toList ++ R).Sublist _
        rw [hch]; exact hs
    · exact Good.ok base

/-- The frames of a packet. -/
theorem Conn.frames_good {chal : Nat → List Nat} {cause : Nat → Prop} {c : Conn} (h : Inv c) {i : Nat}
    (ha : Avail c i) (hw : Waits chal c) (hne : c.paths ≠ []) (now : Nat) (fs : List PFrame)
    (hok : ∀ f ∈ fs, Hist.FrameOk f)
    (hc : ∀ d j, PFrame.response d ∈ fs → (chal j).head? = some d → cause j) :
    Good (c.frames i now fs) (FP chal cause i fs (takenIn c i now fs) c) := by
  induction fs generalizing c with
  | nil => exact Good.ok (FP.refl h ha hw)
  | cons f l ih =>
    rw [Conn.frames]
    have hf : Good (c.frame i now f) (fun c' => FP chal cause i [f] (match f with
        | .newCid e _ => if c.store.any (fun x => x = e) then [] else [e.seq]
        | _ => []) c c') := by
      cases f with
      | newCid e rp =>
        exact (Conn.newConnectionId_good h ha hw (hok _ List.mem_cons_self)).mono
          (fun c' hc => hc.1)
      | challenge d => exact Conn.pathChallenge_good h ha hw hne d
      | response d => exact Conn.pathResponse_good h ha hw d now (fun j => hc d j List.mem_cons_self)
    refine ⟨fun c2 hc2 => ?_, ?_⟩
    · cases hr : c.frame i now f with
      | error e => rw [hr] at hc2; cases hc2
      | ok c1 =>
        rw [hr] at hc2
        have hc2 : c1.frames i now l = .ok c2 := hc2
        have p1 := hf.1 c1 hr
        have p2 := (ih p1.inv p1.avail p1.waits (p1.ne hne)
          (fun f hf => hok f (List.mem_cons_of_mem _ hf))
          (fun d j hd => hc d j (List.mem_cons_of_mem _ hd))).1 c2 hc2
        have := p1.trans p2
        rw [takenIn, hr]
        cases f with
        | newCid e rp =>
          simp only at this ⊢
          split
          · rename_i hany
            rw [if_pos hany] at this; exact this
          · rename_i hany
            rw [if_neg hany] at this; exact this
        | challenge d => exact this
        | response d => exact this
    · intro hp
      cases hr : c.frame i now f with
      | error e => rw [hr] at hp; exact hf.2 (by rw [hr]; cases hp; rfl)
      | ok c1 =>
        rw [hr] at hp
        have hp : c1.frames i now l = .error .panic := hp
        have p1 := hf.1 c1 hr
        exact (ih p1.inv p1.avail p1.waits (p1.ne hne)
          (fun f hf => hok f (List.mem_cons_of_mem _ hf))
          (fun d j hd => hc d j (List.mem_cons_of_mem _ hd))).2 hp

end Neqo.Path
