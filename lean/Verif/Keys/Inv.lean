import Verif.Keys.ReadInv

/-! The invariants hold in every history. -/

namespace Neqo.Keys

/-- The read keys of an endpoint and the record. -/
structure RInv (k : K) (acc : List (Nat × Nat)) (op : List Nat) : Prop where
  none : k.read = none → k.readNext = none ∧ k.updTime = none ∧ k.updEpoch = none ∧
    (∀ x ∈ acc, x.1 = 1) ∧ (∀ e ∈ op, e = 1)
  some : ∀ r, k.read = some r → ∃ n w, k.readNext = some n ∧ k.write = some w ∧
    Rd r n w.epoch k.busy k.updEpoch acc op ∧
    (k.hasZeroRead = true → k.updTime.isSome = true ∧ r.epoch = 3)

theorem RInv.init (c : Cipher) : RInv (K.init c) [] [] where
  none := by intro _; exact ⟨rfl, rfl, rfl, by simp, by simp⟩
  some := by intro r h; cases h

/-- The packets accepted after one more has arrived. -/
def addAcc (e : Nat) (res : Except KErr Nat) (acc : List (Nat × Nat)) : List (Nat × Nat) :=
  match res with
  | .ok pn => (e, pn) :: acc
  | .error _ => acc

/-- What receiving may do to the write side. -/
def WSame (k k' : K) : Prop :=
  k'.cipher = k.cipher ∧ k'.wz = k.wz ∧
    (k'.write = k.write ∨ ∃ w, k.write = some w ∧ k'.write = some (w.next k.cipher))

theorem WSame.refl (k : K) : WSame k k := ⟨rfl, rfl, .inl rfl⟩

theorem WInv.same {c : Cipher} {k k' : K} {sent : List (Nat × Nat)} {zs rj : Bool}
    (hi : WInv c k sent zs rj) (h : WSame k k') : WInv c k' sent zs rj := by
  obtain ⟨h1, h2, h3 | ⟨w, h3, h4⟩⟩ := h
  · exact hi.congr h3 h1 h2
  · exact hi.update h3 (by rw [h4, hi.cip]) h1 h2

theorem K.respond_old {k : K} {d : Dx} {t : Nat}
    (h : d.epoch = 3 ∨ ∃ e, k.updEpoch = some e ∧ d.epoch ≤ e) : k.maybeRespond d t = .ok k := by
  unfold K.maybeRespond
  split
  · rename_i hn
    unfold Dx.needsUpdate at hn
    simp only [decide_eq_true_eq] at hn
    rcases h with h | ⟨e, h1, h2⟩
    · omega
    · unfold K.keyUpdateReceived
      rw [h1]
      simp only [Option.any_some]
      rw [if_pos (by simpa using h2)]
  · rfl

theorem K.busy_of_none {k : K} (h : k.updTime = none) : k.busy = false := by
  unfold K.busy; rw [h]; rfl

/-- What the check does when there are read keys. -/
theorem K.checkOverlap_eq {k : K} {r n : Dx} (hr : k.read = some r) (hn : k.readNext = some n) :
    k.checkOverlap = if k.updTime.isSome then
      ({ k with readNext := some (n.continuation r).1 },
        if (n.continuation r).2 then none else some .overlap) else (k, none) := by
  unfold K.checkOverlap
  rw [hr, hn]

/-- What responding to a new update does. -/
theorem K.respond_new {k k' : K} {d r w : Dx} {t : Nat} (hz : k.hasZeroRead = true → k.updTime.isSome = true)
    (hr : k.read = some r) (hw : k.write = some w) (he : 3 < d.epoch)
    (hs : d.start + 1 = d.stop) (hu : ∀ e, k.updEpoch = some e → e < d.epoch)
    (h : k.maybeRespond d t = .ok k') :
    k.updTime = none ∧ k.hasZeroRead = false ∧
      k' = { k with updEpoch := some d.epoch, updTime := some t, write := if w.epoch = r.epoch then some (w.next k.cipher) else some w } := by
  unfold K.maybeRespond at h
  rw [if_pos (by unfold Dx.needsUpdate; simp only [decide_eq_true_eq]; exact ⟨hs, he⟩)] at h
  unfold K.keyUpdateReceived at h
  rw [if_neg (by
    cases hk : k.updEpoch with
    | none => simp
    | some e =>
      have := hu e hk
      simp only [Option.any_some, decide_eq_true_eq]
      omega)] at h
  simp only at h
  split at h
  · cases h
  · rename_i k₁ b hm
    obtain ⟨h1, w', r', h2, h3, h4⟩ := K.maybeUpdateWrite_ok hm
    simp only at h1 h2 h3 h4
    rw [hw] at h2
    rw [hr] at h3
    obtain rfl := Option.some.inj h2
    obtain rfl := Option.some.inj h3
    have hz' : k.hasZeroRead = false := by
      cases hb : k.hasZeroRead with
      | false => rfl
      | true => rw [h1] at hz; cases hz hb
    refine ⟨h1, hz', ?_⟩
    rcases h4 with ⟨_, h4, rfl⟩ | ⟨_, h4, rfl⟩
    · rw [if_pos (by show k.updTime.isSome = k.hasZeroRead; rw [h1, hz']; rfl)] at h
      rw [if_pos h4]
      obtain rfl := Except.ok.inj h
      have hz2 : ∀ k₂ : K, k₂.zero = k.zero → (if k₂.hasZeroRead then none else k.zero) = k.zero := by
        intro k₂ e
        have : k₂.hasZeroRead = false := by unfold K.hasZeroRead at hz' ⊢; rw [e]; exact hz'
        rw [this]; rfl
      congr 1
      exact hz2 _ rfl
    · rw [if_pos (by show k.updTime.isSome = k.hasZeroRead; rw [h1, hz']; rfl)] at h
      rw [if_neg h4]
      obtain rfl := Except.ok.inj h
      have hz2 : ∀ k₂ : K, k₂.zero = k.zero → (if k₂.hasZeroRead then none else k.zero) = k.zero := by
        intro k₂ e
        have : k₂.hasZeroRead = false := by unfold K.hasZeroRead at hz' ⊢; rw [e]; exact hz'
        rw [this]; rfl
      simp only
      rw [← hw]
      congr 1
      exact hz2 _ rfl

theorem RInv.short {k k' : K} {acc : List (Nat × Nat)} {op : List Nat} {p : Wire} {t : Nat} {o : Bool}
    {res : Except KErr Nat} (hi : RInv k acc op) (h : k.decryptShort p t = (k', ⟨o, res⟩))
    (hf : ∀ e, res = .error e → Hist.fatal e = false) :
    WSame k k' ∧ RInv k' (addAcc p.epoch res acc) (if o then p.epoch :: op else op) := by
  unfold K.decryptShort at h
  split at h
  · obtain ⟨rfl, h2⟩ := Prod.mk.inj h
    injection h2 with h2 h3
    subst h2 h3
    exact ⟨.refl _, hi⟩
  · rename_i r hr
    obtain ⟨n, w, hn, hw, rd, hz⟩ := hi.some r hr
    simp only at h
    split at h
    · obtain ⟨rfl, h2⟩ := Prod.mk.inj h
      injection h2 with h2 h3
      subst h2 h3
      exact ⟨.refl _, hi⟩
    · rename_i s d hrx
      generalize decodePn r.stop (truncate p.pn p.len) p.len = pn at h
      -- the outcome once a new state is known
      have fin : ∀ (k₁ : K) (r₁ n₁ w₁ : Dx) (acc₁ : List (Nat × Nat)) (op₁ : List Nat),
          k₁.read = Option.some r₁ → k₁.readNext = Option.some n₁ → k₁.write = Option.some w₁ →
          ∀ {b : Bool}, k₁.busy = b → Rd r₁ n₁ w₁.epoch b k₁.updEpoch acc₁ op₁ →
          (k₁.hasZeroRead = true → k₁.updTime.isSome = true ∧ r₁.epoch = 3) → RInv k₁ acc₁ op₁ := by
        intro k₁ r₁ n₁ w₁ acc₁ op₁ h1 h2 h3 b hb h4 h5
        subst hb
        refine ⟨?_, ?_⟩
        · intro h; rw [h1] at h; cases h
        · intro r₂ h
          rw [h1] at h
          obtain rfl := Option.some.inj h
          exact ⟨n₁, w₁, h2, h3, h4, h5⟩
      rcases K.rx_some hrx with ⟨rfl, hd⟩ | ⟨rfl, hd⟩
      · -- opened with the current keys
        rw [hr] at hd
        obtain rfl := Option.some.inj hd
        split at h
        · rename_i d' e ho
          obtain ⟨rfl, h2⟩ := Prod.mk.inj h
          injection h2 with h2 h3
          subst h2 h3
          obtain ⟨rfl, _⟩ := K.openWith_some ho (hf e rfl)
          exact ⟨.refl _, fin _ _ n w _ _ rfl hn hw rfl (rd.inv_cur _) hz⟩
        · rename_i r' ho
          obtain ⟨o1, o2, o3, o4, o5, o6, o7, o8, o9⟩ := K.openWith_none ho
          have hresp : (k.setRx .cur r').maybeRespond r' t = .ok (k.setRx .cur r') := by
            apply K.respond_old
            show r'.epoch = 3 ∨ ∃ e, k.updEpoch = Option.some e ∧ r'.epoch ≤ e
            rw [o5]
            cases hb : k.busy with
            | false =>
              rcases (rd.idle hb).2.2.1 with h | h
              · exact .inl h.1
              · exact .inr ⟨_, h, Nat.le_refl _⟩
            | true => exact .inr ⟨_, (rd.busy hb).2.2.1, by have := rd.nep; omega⟩
          rw [hresp] at h
          simp only at h
          rw [K.checkOverlap_eq (k := k.setRx .cur r') (r := r') (n := n) rfl hn] at h
          have hut : (k.setRx .cur r').updTime = k.updTime := rfl
          rw [hut] at h
          cases hu : k.updTime.isSome with
          | false =>
            rw [hu] at h
            simp only [Bool.false_eq_true, if_false] at h
            obtain ⟨rfl, h2⟩ := Prod.mk.inj h
            injection h2 with h2 h3
            subst h2 h3
            have hb : k.busy = false := K.busy_of_none (by cases hk : k.updTime <;> simp_all)
            rw [hb] at rd
            refine ⟨.refl _, fin _ r' n w _ _ rfl hn hw hb ?_ ?_⟩
            · have := (rd.recvCurIdle o3 o5 o6 o8).opOld (e := p.epoch) (.inl (o1.trans o5.symm))
              rw [← o1] at this
              exact this
            · intro hz'
              have := hz hz'
              rw [hu] at this
              cases this.1
          | true =>
            rw [hu] at h
            simp only [if_true] at h
            have hzz : ∀ k₁ : K, k₁.zero = k.zero → k₁.updTime = k.updTime →
                (k₁.hasZeroRead = true → k₁.updTime.isSome = true ∧ r'.epoch = 3) := by
              intro k₁ e1 e2 hzr
              unfold K.hasZeroRead at hzr
              rw [e1] at hzr
              have := hz hzr
              rw [e2]; exact ⟨this.1, by omega⟩
            cases hb : k.busy with
            | false =>
              rw [hb] at rd
              have h1 := rd.recvCurIdle o3 o5 o6 o8
              have h2 := h1.idleOverlap
              rw [h2.2] at h
              simp only [if_true] at h
              obtain ⟨rfl, h3⟩ := Prod.mk.inj h
              injection h3 with h3 h4
              subst h3 h4
              refine ⟨.refl _, fin _ r' _ w _ _ rfl rfl hw hb ?_ (hzz _ rfl rfl)⟩
              have := h2.1.opOld (e := p.epoch) (.inl (o1.trans o5.symm))
              rw [← o1] at this
              exact this
            | true =>
              rw [hb] at rd
              obtain ⟨h1, h2⟩ := rd.recvCurBusy o3 o5 o6 o8
              cases hc : (n.continuation r').2 with
              | true =>
                rw [hc] at h
                simp only [if_true] at h
                obtain ⟨rfl, h3⟩ := Prod.mk.inj h
                injection h3 with h3 h4
                subst h3 h4
                refine ⟨.refl _, fin _ r' _ w _ _ rfl rfl hw hb ?_ (hzz _ rfl rfl)⟩
                have := (h2 hc).opOld (e := p.epoch) (.inl (o1.trans o5.symm))
                rw [← o1] at this
                exact this
              | false =>
                rw [hc] at h
                simp only [Bool.false_eq_true, if_false] at h
                obtain ⟨rfl, h3⟩ := Prod.mk.inj h
                injection h3 with h3 h4
                subst h3 h4
                refine ⟨.refl _, fin _ r' _ w _ _ rfl rfl hw hb ?_ (hzz _ rfl rfl)⟩
                exact h1.opOld (e := p.epoch) (.inl (o1.trans o5.symm))
      · -- opened with the next keys
        rw [hn] at hd
        obtain rfl := Option.some.inj hd
        split at h
        · rename_i d' e ho
          obtain ⟨rfl, h2⟩ := Prod.mk.inj h
          injection h2 with h2 h3
          subst h2 h3
          obtain ⟨rfl, _⟩ := K.openWith_some ho (hf e rfl)
          exact ⟨.refl _, fin _ r _ w _ _ hr rfl hw rfl (rd.inv_nxt _) hz⟩
        · rename_i n' ho
          obtain ⟨o1, o2, o3, o4, o5, o6, o7, o8, o9⟩ := K.openWith_none ho
          have hrd' : (k.setRx .nxt n').read = Option.some r := hr
          have hwr' : (k.setRx .nxt n').write = Option.some w := hw
          have nep := rd.nep
          have rep := rd.rep
          cases hb : k.busy with
          | true =>
            rw [hb] at rd
            have hue := (rd.busy rfl).2.2.1
            have hresp : (k.setRx .nxt n').maybeRespond n' t = .ok (k.setRx .nxt n') := by
              apply K.respond_old
              exact .inr ⟨_, hue, by omega⟩
            rw [hresp] at h
            simp only at h
            rw [K.checkOverlap_eq (r := r) (n := n') hrd' rfl] at h
            have hu : (k.setRx .nxt n').updTime.isSome = true := by
              have hb' := hb
              unfold K.busy at hb'
              simp only [Bool.and_eq_true] at hb'
              exact hb'.1
            rw [if_pos hu] at h
            obtain ⟨h1, h2⟩ := rd.recvNxtBusy o3 o5 o6 o8 o9
            have hop : ∀ {acc₁}, Rd r (n'.continuation r).1 w.epoch true k.updEpoch acc₁ op →
                Rd r (n'.continuation r).1 w.epoch true k.updEpoch acc₁ (p.epoch :: op) := by
              intro acc₁ hx
              refine hx.opOld (.inr ⟨rfl, ?_⟩)
              rw [(Dx.continuation_facts n' r).2.1, o5]; exact o1
            cases hc : (n'.continuation r).2 with
            | true =>
              rw [hc] at h
              simp only [if_true] at h
              obtain ⟨rfl, h3⟩ := Prod.mk.inj h
              injection h3 with h3 h4
              subst h3 h4
              refine ⟨.refl _, fin _ r _ w _ _ hr rfl hw hb ?_ hz⟩
              have := hop (h2 hc)
              rw [← o1] at this
              exact this
            | false =>
              rw [hc] at h
              simp only [Bool.false_eq_true, if_false] at h
              obtain ⟨rfl, h3⟩ := Prod.mk.inj h
              injection h3 with h3 h4
              subst h3 h4
              refine ⟨.refl _, fin _ r _ w _ _ hr rfl hw hb ?_ hz⟩
              exact hop h1
          | false =>
            rw [hb] at rd
            obtain ⟨i1, i2, i3, i4, i5⟩ := rd.idle rfl
            rw [if_pos i1] at o9
            split at h
            · rename_i e he
              -- responding fails: fatal
              obtain ⟨rfl, h3⟩ := Prod.mk.inj h
              injection h3 with h3 h4
              subst h3 h4
              exfalso
              have hff := hf e rfl
              unfold K.maybeRespond at he
              split at he
              · unfold K.keyUpdateReceived at he
                split at he
                · cases he
                · simp only at he
                  split at he
                  · rename_i e' hm
                    injection he with he
                    subst he
                    unfold K.maybeUpdateWrite at hm
                    split at hm
                    · injection hm with hm; rw [← hm] at hff; cases hff
                    · simp only [hrd', hwr'] at hm
                      split at hm <;> cases hm
                  · split at he
                    · cases he
                    · injection he with he; rw [← he] at hff; cases hff
              · cases he
            · rename_i k₁ hk₁
              obtain ⟨u1, u2, hke⟩ := K.respond_new (k := k.setRx .nxt n') (d := n') (r := r) (w := w) (fun hzr => (hz hzr).1) hrd' hwr'
                (by omega) (by omega) (by
                  intro e he
                  have he' : k.updEpoch = Option.some e := he
                  rcases i3 with h | h
                  · rw [h.2] at he'; cases he'
                  · rw [h] at he'; have := Option.some.inj he'; omega) hk₁
              rw [K.checkOverlap_eq (k := k₁) (r := r) (n := n') (by rw [hke]; exact hr) (by rw [hke]; rfl)] at h
              subst hke
              simp only [Option.isSome_some, if_true] at h
              obtain ⟨h1, h2⟩ := rd.recvNxtIdle o3 o5 o8 (by rw [if_pos i1]; exact o9)
              have wep := rd.wep
              have hwr2 : ∃ w₁ : Dx, (if w.epoch = r.epoch then Option.some (w.next k.cipher) else Option.some w) = Option.some w₁ ∧ w₁.epoch = n.epoch := by
                by_cases hwe : w.epoch = r.epoch
                · rw [if_pos hwe]
                  exact ⟨_, rfl, by show w.epoch + 1 = _; omega⟩
                · rw [if_neg hwe]; exact ⟨_, rfl, by omega⟩
              have hws : ∀ k₂ : K, k₂.cipher = k.cipher → k₂.zero = k.zero →
                  k₂.write = (if w.epoch = r.epoch then Option.some (w.next k.cipher) else Option.some w) → WSame k k₂ := by
                intro k₂ e1 e2 e3
                refine ⟨e1, by unfold K.wz; rw [e2], ?_⟩
                by_cases hwe : w.epoch = r.epoch
                · rw [if_pos hwe] at e3; exact .inr ⟨w, hw, e3⟩
                · rw [if_neg hwe] at e3; exact .inl (e3.trans hw.symm)
              obtain ⟨w₁, hw₁, hwe₁⟩ := hwr2
              have hbb : ∀ k₂ : K, k₂.zero = k.zero → k₂.updTime = Option.some t → k₂.busy = true := by
                intro k₂ e1 e2
                unfold K.busy K.hasZeroRead
                rw [e1, e2]
                have u2' : k.hasZeroRead = false := u2
                unfold K.hasZeroRead at u2'
                rw [u2']; rfl
              cases hc : (n'.continuation r).2 with
              | true =>
                rw [hc] at h
                simp only [if_true] at h
                obtain ⟨rfl, h3⟩ := Prod.mk.inj h
                injection h3 with h3 h4
                subst h3 h4
                refine ⟨hws _ rfl rfl rfl, fin _ r _ w₁ _ _ hr rfl hw₁ (hbb _ rfl rfl) ?_ ?_⟩
                · have := h2 hc
                  rw [← o1] at this
                  rw [hwe₁, ← o1]
                  show Rd _ _ _ _ (Option.some n'.epoch) _ _
                  rw [o5, ← o1]
                  exact this
                · intro hzr
                  have : k.hasZeroRead = true := hzr
                  rw [show k.hasZeroRead = false from u2] at this
                  cases this
              | false =>
                rw [hc] at h
                simp only [Bool.false_eq_true, if_false] at h
                obtain ⟨rfl, h3⟩ := Prod.mk.inj h
                injection h3 with h3 h4
                subst h3 h4
                refine ⟨hws _ rfl rfl rfl, fin _ r _ w₁ _ _ hr rfl hw₁ (hbb _ rfl rfl) ?_ ?_⟩
                · have := h1
                  rw [hwe₁]
                  show Rd _ _ _ _ (Option.some n'.epoch) _ _
                  rw [o5]
                  simp only [if_true]
                  rw [o1]
                  exact this
                · intro hzr
                  have : k.hasZeroRead = true := hzr
                  rw [show k.hasZeroRead = false from u2] at this
                  cases this

theorem RInv.make {k : K} {r n w : Dx} {acc : List (Nat × Nat)} {op : List Nat} {b : Bool}
    (h1 : k.read = Option.some r) (h2 : k.readNext = Option.some n) (h3 : k.write = Option.some w)
    (hb : k.busy = b) (h4 : Rd r n w.epoch b k.updEpoch acc op)
    (h5 : k.hasZeroRead = true → k.updTime.isSome = true ∧ r.epoch = 3) : RInv k acc op := by
  subst hb
  refine ⟨?_, ?_⟩
  · intro h; rw [h1] at h; cases h
  · intro r₂ h
    rw [h1] at h
    obtain rfl := Option.some.inj h
    exact ⟨n, w, h2, h3, h4, h5⟩

/-- Only the read keys, the epoch of the write keys and the timers matter. -/
theorem RInv.congr {k k' : K} {acc : List (Nat × Nat)} {op : List Nat} (hi : RInv k acc op)
    (h1 : k'.read = k.read) (h2 : k'.readNext = k.readNext) (h3 : k'.updTime = k.updTime)
    (h4 : k'.updEpoch = k.updEpoch) (h5 : k'.hasZeroRead = k.hasZeroRead ∨ k.read = Option.none)
    (h6 : ∀ w, k.write = Option.some w → ∃ w', k'.write = Option.some w' ∧ w'.epoch = w.epoch) :
    RInv k' acc op := by
  refine ⟨?_, ?_⟩
  · rw [h1, h2, h3, h4]; exact hi.none
  · rw [h1]
    intro r hr
    obtain ⟨n, w, a1, a2, a3, a4⟩ := hi.some r hr
    obtain ⟨w', b1, b2⟩ := h6 w a2
    have h5' : k'.hasZeroRead = k.hasZeroRead := by
      rcases h5 with h | h
      · exact h
      · rw [hr] at h; cases h
    refine ⟨n, w', by rw [h2]; exact a1, b1, ?_, by rw [h5', h3]; exact a4⟩
    rw [b2, h4, show k'.busy = k.busy by unfold K.busy; rw [h3, h5']]
    exact a3

/-- The write keys move on while no update is being waited out. -/
theorem RInv.wUpdate {k : K} {acc : List (Nat × Nat)} {op : List Nat} {w r : Dx} {c : Cipher}
    (hi : RInv k acc op) (hu : k.updTime = Option.none) (hw : k.write = Option.some w)
    (hr : k.read = Option.some r) (he : w.epoch = r.epoch) :
    RInv { k with write := Option.some (w.next c) } acc op := by
  obtain ⟨n, w', a1, a2, a3, a4⟩ := hi.some r hr
  rw [hw] at a2
  obtain rfl := Option.some.inj a2
  have hb : k.busy = false := K.busy_of_none hu
  rw [hb] at a3
  exact RInv.make (w := w.next c) hr a1 rfl hb (a3.wUpdate he rfl) a4

theorem RInv.zeroRecv {k k' : K} {acc : List (Nat × Nat)} {op : List Nat} {p : Wire} {o : Bool}
    {res : Except KErr Nat} (hi : RInv k acc op) (hp : p.epoch = 1)
    (h : k.decryptZero p = (k', ⟨o, res⟩)) (hf : ∀ e, res = .error e → Hist.fatal e = false) :
    WSame k k' ∧ RInv k' (addAcc p.epoch res acc) (if o then p.epoch :: op else op) := by
  rw [hp]
  unfold K.decryptZero at h
  split at h
  · obtain ⟨rfl, h2⟩ := Prod.mk.inj h
    injection h2 with h2 h3
    subst h2 h3
    exact ⟨.refl _, hi⟩
  · rename_i z hz
    obtain ⟨hz1, hz2⟩ := Option.filter_eq_some_iff.mp hz
    simp only [decide_eq_true_eq] at hz2
    have hzr : k.hasZeroRead = true := by unfold K.hasZeroRead; rw [hz1]; simp [hz2]
    have hwz : k.wz = Option.none := by unfold K.wz; rw [hz1]; simp [Option.filter, hz2]
    simp only at h
    generalize decodePn z.stop (truncate p.pn p.len) p.len = pn at h
    have keep : ∀ z' : Dx, z'.dir = .read → WSame k { k with zero := Option.some z' } ∧
        K.hasZeroRead { k with zero := Option.some z' } = k.hasZeroRead := by
      intro z' hd
      refine ⟨⟨rfl, ?_, .inl rfl⟩, ?_⟩
      · rw [hwz]; unfold K.wz; simp [Option.filter, hd]
      · rw [hzr]; unfold K.hasZeroRead; simp [hd]
    have keepR : ∀ z' : Dx, z'.dir = .read → RInv { k with zero := Option.some z' } acc op := by
      intro z' hd
      exact hi.congr rfl rfl rfl rfl (.inl (keep z' hd).2) (fun w hw => ⟨w, hw, rfl⟩)
    split at h
    · rename_i z' e ho
      obtain ⟨rfl, h2⟩ := Prod.mk.inj h
      injection h2 with h2 h3
      subst h2 h3
      obtain ⟨rfl, _⟩ := K.openWith_some ho (hf e rfl)
      exact ⟨(keep { z with inv := z.inv - 1 } hz2).1, keepR { z with inv := z.inv - 1 } hz2⟩
    · rename_i z' ho
      obtain ⟨_, _, _, o4, _⟩ := K.openWith_none ho
      have hd : z'.dir = .read := o4.trans hz2
      have hk := (keep z' hd).1
      have hkz := (keep z' hd).2
      cases hr : k.read with
      | none =>
        obtain ⟨n1, n2, n3, n4, n5⟩ := hi.none hr
        have hco : K.checkOverlap { k with zero := Option.some z' } = ({ k with zero := Option.some z' }, Option.none) := by
          unfold K.checkOverlap
          simp only
          rw [n2]
          rfl
        rw [hco] at h
        obtain ⟨rfl, h2⟩ := Prod.mk.inj h
        injection h2 with h2 h3
        subst h2 h3
        refine ⟨hk, ⟨fun _ => ⟨n1, n2, n3, ?_, ?_⟩, ?_⟩⟩
        · intro x hx
          rcases List.mem_cons.mp hx with rfl | hx
          · rfl
          · exact n4 x hx
        · intro x hx
          rcases List.mem_cons.mp hx with rfl | hx
          · rfl
          · exact n5 x hx
        · intro r h
          rw [show K.read { k with zero := Option.some z' } = k.read from rfl, hr] at h
          cases h
      | some r =>
        obtain ⟨n, w, a1, a2, a3, a4⟩ := hi.some r hr
        obtain ⟨hu, h3⟩ := a4 hzr
        rw [K.checkOverlap_eq (k := { k with zero := Option.some z' }) (r := r) (n := n) hr a1] at h
        rw [if_pos (by exact hu)] at h
        have hb : k.busy = false := by unfold K.busy; rw [hzr]; simp
        rw [hb] at a3
        obtain ⟨b1, b2⟩ := a3.idleOverlap
        rw [b2] at h
        simp only [if_true] at h
        obtain ⟨rfl, h2⟩ := Prod.mk.inj h
        injection h2 with h2 h4
        subst h2 h4
        refine ⟨⟨rfl, hk.2.1, .inl rfl⟩, RInv.make (w := w) (b := false) hr rfl a2 ?_ (b1.zeroOp.zeroAcc pn) ?_⟩
        · have : ∀ k₂ : K, k₂.zero = Option.some z' → k₂.busy = false := by
            intro k₂ e
            unfold K.busy K.hasZeroRead
            rw [e]; simp [hd]
          exact this _ rfl
        · intro _; exact ⟨hu, h3⟩

theorem RInv.recv {k k' : K} {acc : List (Nat × Nat)} {op : List Nat} {p : Wire} {t : Nat} {o : Bool}
    {res : Except KErr Nat} (hi : RInv k acc op) (h : k.decrypt p t = (k', ⟨o, res⟩))
    (hf : ∀ e, res = .error e → Hist.fatal e = false) :
    WSame k k' ∧ RInv k' (addAcc p.epoch res acc) (if o then p.epoch :: op else op) := by
  unfold K.decrypt at h
  split at h
  · rename_i hp; exact hi.zeroRecv hp h hf
  · exact hi.short h hf

theorem RInv.tick {k k' : K} {acc : List (Nat × Nat)} {op : List Nat} {now : Nat}
    (hi : RInv k acc op) (h : k.checkKeyUpdate now = .ok k') : WSame k k' ∧ RInv k' acc op := by
  unfold K.checkKeyUpdate at h
  split at h
  · obtain rfl := Except.ok.inj h; exact ⟨.refl _, hi⟩
  · rename_i t ht
    split at h
    · obtain rfl := Except.ok.inj h; exact ⟨.refl _, hi⟩
    · cases hr : k.read with
      | none => rw [(hi.none hr).2.1] at ht; cases ht
      | some r =>
        obtain ⟨n, w, a1, a2, a3, a4⟩ := hi.some r hr
        split at h
        · rename_i hz
          obtain rfl := Except.ok.inj h
          have hb : k.busy = false := by unfold K.busy; rw [hz]; simp
          rw [hb] at a3
          have hwz : k.wz = Option.none := by
            unfold K.hasZeroRead at hz
            unfold K.wz
            split at hz
            · rename_i z hzz
              simp only [decide_eq_true_eq] at hz
              rw [hzz]; simp [Option.filter, hz]
            · cases hz
          refine ⟨⟨rfl, hwz.symm, .inl rfl⟩, RInv.make (w := w) (b := false) hr a1 a2 rfl a3 ?_⟩
          intro h; cases h
        · rename_i hz
          rw [a1] at h
          simp only at h
          obtain rfl := Except.ok.inj h
          have hb : k.busy = true := by unfold K.busy; rw [ht]; simp_all
          rw [hb] at a3
          refine ⟨⟨rfl, rfl, .inl rfl⟩, RInv.make (w := w) (b := false) rfl rfl a2 rfl (a3.rotate _) ?_⟩
          intro h; exact absurd h hz

theorem RInv.setRead {k k' : K} {acc : List (Nat × Nat)} {op : List Nat} {t : Nat}
    (hi : RInv k acc op) (hwz : k.wz = Option.none) (hw3 : ∀ w, k.write = Option.some w → w.epoch = 3)
    (h : k.setRead t = .ok k') : WSame k k' ∧ RInv k' acc op := by
  unfold K.setRead at h
  split at h
  · cases h
  · rename_i hg
    have hr : k.read = Option.none := by cases hk : k.read <;> simp_all
    obtain ⟨w, hw⟩ : ∃ w, k.write = Option.some w := by cases hk : k.write <;> simp_all
    obtain ⟨n1, n2, n3, n4, n5⟩ := hi.none hr
    have hwe := hw3 w hw
    have base : ∀ (r n : Dx), r.epoch = 3 → n = r.next k.cipher → Rd r n w.epoch false Option.none acc op := by
      intro r n h1 h2
      subst h2
      refine ⟨fun _ => Nat.le_refl _, rfl, by omega, .inl (by omega), fun _ => ⟨rfl, rfl, .inl ⟨h1, rfl⟩, ?_, ?_⟩, (fun h => by cases h), ?_, ?_, ?_, ?_, ?_, ?_⟩
      · intro x hx; have := n4 x hx; omega
      · intro x hx; have := n5 x hx; omega
      · intro x hx; exact .inl (n4 x hx)
      · intro x hx
        have := n5 x hx
        show x ≤ r.epoch + 1; omega
      · intro x hx he; have := n4 x hx; omega
      · intro x hx he; have := n4 x hx; omega
      · intro x hx y _ he; have := n4 x hx; omega
      · intro e h3 he; omega
    simp only at h
    split at h
    · rename_i z hz
      have hzd : z.dir = .read := by
        cases hd : z.dir with
        | read => rfl
        | write => unfold K.wz at hwz; rw [hz] at hwz; simp [Option.filter, hd] at hwz
      rw [if_pos hzd, Dx.continuation_new] at h
      simp only [if_true] at h
      obtain rfl := Except.ok.inj h
      have hzr : ∀ k₂ : K, k₂.zero = k.zero → k₂.hasZeroRead = true := by
        intro k₂ e; unfold K.hasZeroRead; rw [e, hz]; simp [hzd]
      refine ⟨⟨rfl, rfl, .inl rfl⟩, RInv.make (w := w) (b := false) rfl rfl hw ?_ ?_ ?_⟩
      · have : ∀ k₂ : K, k₂.zero = k.zero → k₂.busy = false := by
          intro k₂ e; unfold K.busy; rw [hzr k₂ e]; simp
        exact this _ rfl
      · show Rd _ _ _ _ k.updEpoch _ _
        rw [n3]
        exact base _ _ rfl rfl
      · intro _; exact ⟨rfl, rfl⟩
    · rename_i hz
      obtain rfl := Except.ok.inj h
      have hzr : ∀ k₂ : K, k₂.zero = k.zero → k₂.hasZeroRead = false := by
        intro k₂ e; unfold K.hasZeroRead; rw [e, hz]
      refine ⟨⟨rfl, rfl, .inl rfl⟩, RInv.make (w := w) (b := false) rfl rfl hw ?_ ?_ ?_⟩
      · exact K.busy_of_none n2
      · show Rd _ _ _ _ k.updEpoch _ _
        rw [n3]
        exact base _ _ rfl rfl
      · intro h
        have h' : k.hasZeroRead = true := h
        rw [hzr k rfl] at h'; cases h'

/-- The invariant of a history. -/
structure Inv (c : Cipher) (h : Hist) : Prop where
  w : WInv c h.k h.sent h.zeroSet h.rejected
  r : RInv h.k h.accepted h.opened
  first : h.k.read = none → ∀ w, h.k.write = some w → w.epoch = 3

theorem K.autoUpdate_none {k k' : K} (h : k.autoUpdate = .ok k') (hr : k.read = none) : k' = k := by
  rcases K.autoUpdate_ok h with h | ⟨_, r, _, _, h, _⟩
  · exact h
  · rw [hr] at h; cases h

theorem K.checkOverlap_read (k : K) : k.checkOverlap.1.read = k.read ∧ k.checkOverlap.1.write = k.write := by
  unfold K.checkOverlap
  split
  · split <;> exact ⟨rfl, rfl⟩
  · exact ⟨rfl, rfl⟩

theorem K.maybeRespond_read {k k' : K} {d : Dx} {t : Nat} (h : k.maybeRespond d t = .ok k') :
    k'.read = k.read := by
  unfold K.maybeRespond at h
  split at h
  · unfold K.keyUpdateReceived at h
    split at h
    · rw [← Except.ok.inj h]
    · simp only at h
      split at h
      · cases h
      · rename_i k₁ b hm
        split at h
        · rw [← Except.ok.inj h]
          obtain ⟨_, w, r, _, _, ⟨_, _, rfl⟩ | ⟨_, _, rfl⟩⟩ := K.maybeUpdateWrite_ok hm <;> rfl
        · cases h
  · rw [← Except.ok.inj h]

/-- Receiving neither adds nor removes read keys, and without them write keys stay. -/
theorem K.decrypt_read {k k' : K} {p : Wire} {t : Nat} {o : K.Outcome}
    (h : k.decrypt p t = (k', o)) :
    (k'.read = none ↔ k.read = none) ∧ (k.read = none → k'.write = k.write) := by
  unfold K.decrypt at h
  split at h
  · unfold K.decryptZero at h
    split at h
    · obtain ⟨rfl, rfl⟩ := Prod.mk.inj h; exact ⟨Iff.rfl, fun _ => rfl⟩
    · simp only at h
      split at h
      · obtain ⟨rfl, rfl⟩ := Prod.mk.inj h; exact ⟨Iff.rfl, fun _ => rfl⟩
      · rename_i z' ho
        have h1 := K.checkOverlap_read { k with zero := some z' }
        split at h <;>
        · rename_i hc
          rw [hc] at h1
          obtain ⟨rfl, rfl⟩ := Prod.mk.inj h
          exact ⟨by rw [h1.1], fun _ => h1.2⟩
  · unfold K.decryptShort at h
    split at h
    · obtain ⟨rfl, rfl⟩ := Prod.mk.inj h; exact ⟨Iff.rfl, fun _ => rfl⟩
    · rename_i r hr
      have fin : k'.read ≠ none → (k'.read = none ↔ k.read = none) ∧ (k.read = none → k'.write = k.write) := by
        intro hn
        refine ⟨⟨fun h => absurd h hn, ?_⟩, ?_⟩
        · rw [hr]; intro h; cases h
        · rw [hr]; intro h; cases h
      have hset : ∀ (s : K.Slot) (d : Dx), (k.setRx s d).read ≠ none := by
        intro s d
        cases s
        · intro h; cases h
        · show k.read ≠ none; rw [hr]; intro h; cases h
      simp only at h
      split at h
      · obtain ⟨rfl, rfl⟩ := Prod.mk.inj h; exact ⟨Iff.rfl, fun _ => rfl⟩
      · split at h
        · obtain ⟨rfl, rfl⟩ := Prod.mk.inj h; exact fin (hset _ _)
        · split at h
          · obtain ⟨rfl, rfl⟩ := Prod.mk.inj h; exact fin (hset _ _)
          · rename_i k₁ hk₁
            have h1 := K.maybeRespond_read hk₁
            have h2 := (K.checkOverlap_read k₁).1
            split at h <;>
            · rename_i hc
              rw [hc] at h2
              obtain ⟨rfl, rfl⟩ := Prod.mk.inj h
              exact fin (by rw [h2, h1]; exact hset _ _)

theorem Inv.init (c : Cipher) : Inv c (Hist.init c) :=
  ⟨WInv.init c, RInv.init c, by intro _ w h; cases h⟩

theorem Inv.step {c : Cipher} {h h' : Hist} {e : Ev} (hi : Inv c h) (hl : h.Legal e)
    (hs : h.step e = .ok h') : Inv c h' := by
  cases e with
  | setZero d =>
    obtain rfl := Except.ok.inj hs
    obtain ⟨l1, l2, l3⟩ := hl
    have hw := hi.w
    rw [l1] at hw
    refine ⟨hw.setZero l3, hi.r.congr rfl rfl rfl rfl (.inr l2) (fun w hw => ⟨w, hw, rfl⟩), hi.first⟩
  | reject =>
    simp only [Hist.step] at hs
    split at hs
    · cases hs
    · rename_i k hk
      obtain rfl := Except.ok.inj hs
      refine ⟨hi.w.discardZero hk, ?_, ?_⟩
      · unfold K.discardZero at hk
        split at hk
        · cases hk
        · obtain rfl := Except.ok.inj hk
          exact hi.r.congr rfl rfl rfl rfl (.inr hl) (fun w hw => ⟨w, hw, rfl⟩)
      · unfold K.discardZero at hk
        split at hk
        · cases hk
        · obtain rfl := Except.ok.inj hk
          exact hi.first
  | setWrite =>
    simp only [Hist.step] at hs
    split at hs
    · cases hs
    · rename_i k hk
      obtain rfl := Except.ok.inj hs
      have hr : h.k.read = none := by
        cases hr : h.k.read with
        | none => rfl
        | some r =>
          obtain ⟨n, w, _, a2, _⟩ := hi.r.some r hr
          rw [show h.k.write = none from hl] at a2; cases a2
      have facts : k.read = h.k.read ∧ k.readNext = h.k.readNext ∧ k.updTime = h.k.updTime ∧
          k.updEpoch = h.k.updEpoch ∧ ∀ w, k.write = some w → w.epoch = 3 := by
        unfold K.setWrite at hk
        split at hk
        · cases hk
        · simp only at hk
          split at hk
          · split at hk
            · rw [Dx.continuation_new] at hk
              simp only [if_true] at hk
              obtain rfl := Except.ok.inj hk
              exact ⟨rfl, rfl, rfl, rfl, fun w hw => by rw [← Option.some.inj hw]; rfl⟩
            · obtain rfl := Except.ok.inj hk
              exact ⟨rfl, rfl, rfl, rfl, fun w hw => by rw [← Option.some.inj hw]; rfl⟩
          · obtain rfl := Except.ok.inj hk
            exact ⟨rfl, rfl, rfl, rfl, fun w hw => by rw [← Option.some.inj hw]; rfl⟩
      obtain ⟨f1, f2, f3, f4, f5⟩ := facts
      refine ⟨hi.w.setWrite hk, hi.r.congr f1 f2 f3 f4 (.inr hr) ?_, fun _ => f5⟩
      intro w hw
      rw [show h.k.write = none from hl] at hw; cases hw
  | setRead t =>
    simp only [Hist.step] at hs
    split at hs
    · cases hs
    · rename_i k hk
      obtain rfl := Except.ok.inj hs
      have hwz : h.k.wz = none := by
        cases hz : h.k.wz with
        | none => rfl
        | some z => exact absurd (hi.w.zkey z hz).2.2.1 hl.1
      obtain ⟨w1, w2⟩ := hi.r.setRead hwz (hi.first hl.2) hk
      refine ⟨hi.w.same w1, w2, ?_⟩
      intro hn
      exfalso
      unfold K.setRead at hk
      split at hk
      · cases hk
      · simp only at hk
        split at hk
        · split at hk
          · split at hk
            · obtain rfl := Except.ok.inj hk; cases hn
            · cases hk
          · obtain rfl := Except.ok.inj hk; cases hn
        · obtain rfl := Except.ok.inj hk; cases hn
  | send b =>
    simp only [Hist.step] at hs
    split at hs
    · obtain rfl := Except.ok.inj hs; exact hi
    · cases hs
    · rename_i k e pn hk
      obtain rfl := Except.ok.inj hs
      refine ⟨hi.w.send hk, ?_, ?_⟩
      · rcases K.send_ok hk with ⟨w, w', hw, he, _, _, ha⟩ | ⟨z, z', hw, hz, he, _, _, rfl⟩
        · obtain ⟨_, e2, _⟩ := Dx.encrypt_ok he
          have h1 : RInv { h.k with write := some w' } h.accepted h.opened :=
            hi.r.congr rfl rfl rfl rfl (.inl rfl) (fun w₀ hw₀ => ⟨w', rfl, by
              rw [hw] at hw₀; rw [← Option.some.inj hw₀]; exact e2⟩)
          rcases K.autoUpdate_ok ha with rfl | ⟨w₁, r, u1, u2, u3, u4, rfl⟩
          · exact h1
          · exact h1.wUpdate u1 u2 u3 u4
        · refine hi.r.congr rfl rfl rfl rfl ?_ (fun w hw => ⟨w, hw, rfl⟩)
          cases hr : h.k.read with
          | none => exact .inr rfl
          | some r =>
            obtain ⟨n, w, _, a2, _⟩ := hi.r.some r hr
            rw [hw] at a2; cases a2
      · intro hn
        rcases K.send_ok hk with ⟨w, w', hw, he, _, _, ha⟩ | ⟨z, z', hw, hz, he, _, _, rfl⟩
        · obtain ⟨_, e2, _⟩ := Dx.encrypt_ok he
          have hrn : h.k.read = none := by
            rcases K.autoUpdate_ok ha with rfl | ⟨w₁, r, u1, u2, u3, u4, rfl⟩
            · exact hn
            · exact hn
          have := K.autoUpdate_none ha hrn
          subst this
          intro w₀ hw₀
          rw [← Option.some.inj hw₀, e2]
          exact hi.first hrn w hw
        · exact hi.first hn
  | recv p t =>
    simp only [Hist.step] at hs
    split at hs
    · rename_i k o pn hk
      obtain rfl := Except.ok.inj hs
      obtain ⟨w1, w2⟩ := hi.r.recv hk (by intro e h; cases h)
      obtain ⟨d1, d2⟩ := K.decrypt_read hk
      refine ⟨hi.w.same w1, w2, ?_⟩
      intro hn
      have hn' := d1.mp hn
      show ∀ w, k.write = some w → _
      rw [d2 hn']; exact hi.first hn'
    · rename_i k o e hk
      split at hs
      · cases hs
      · rename_i hfe
        obtain rfl := Except.ok.inj hs
        obtain ⟨w1, w2⟩ := hi.r.recv hk (by intro e' h; injection h with h; rw [← h]; simpa using hfe)
        obtain ⟨d1, d2⟩ := K.decrypt_read hk
        refine ⟨hi.w.same w1, w2, ?_⟩
        intro hn
        have hn' := d1.mp hn
        show ∀ w, k.write = some w → _
        rw [d2 hn']; exact hi.first hn'
  | initiate la =>
    simp only [Hist.step] at hs
    split at hs
    · obtain rfl := Except.ok.inj hs; exact hi
    · cases hs
    · rename_i k hk
      obtain rfl := Except.ok.inj hs
      obtain ⟨w, r, u1, u2, u3, u4, _, rfl⟩ := K.initiate_ok hk
      refine ⟨hi.w.update u2 (by show some (w.next h.k.cipher) = _; rw [hi.w.cip]) rfl rfl,
        hi.r.wUpdate u1 u2 u3 u4, ?_⟩
      intro hn
      have hn' : h.k.read = none := hn
      rw [u3] at hn'; cases hn'
  | tick now =>
    simp only [Hist.step] at hs
    split at hs
    · cases hs
    · rename_i k hk
      obtain rfl := Except.ok.inj hs
      obtain ⟨w1, w2⟩ := hi.r.tick hk
      refine ⟨hi.w.same w1, w2, ?_⟩
      have : k.read = none → h.k.read = none ∧ k.write = h.k.write := by
        unfold K.checkKeyUpdate at hk
        split at hk
        · obtain rfl := Except.ok.inj hk; intro h; exact ⟨h, rfl⟩
        · split at hk
          · obtain rfl := Except.ok.inj hk; intro h; exact ⟨h, rfl⟩
          · split at hk
            · obtain rfl := Except.ok.inj hk; intro h; exact ⟨h, rfl⟩
            · split at hk
              · cases hk
              · obtain rfl := Except.ok.inj hk; intro h; cases h
      intro hn
      show ∀ w, k.write = some w → _
      obtain ⟨a, b⟩ := this hn
      rw [b]; exact hi.first a

theorem Hist.Reached.inv {c : Cipher} {h : Hist} (hr : Hist.Reached c h) : Inv c h := by
  induction hr with
  | init => exact Inv.init c
  | step _ hl hs ih => exact ih.step hl hs

end Neqo.Keys
