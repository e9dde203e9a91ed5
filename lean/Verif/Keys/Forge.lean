import Verif.Keys.Inv

/-!
How many packets can fail to open: lemmas.
-/

namespace Neqo.Keys

/-! ### The limit can be exceeded -/

/-- A connection that has all its keys and `i` attempts left with the current read keys. -/
def forgeK (c : Cipher) (i : Nat) : K :=
  { cipher := c, zero := none, write := some (Dx.new .write 3 c),
    read := some { Dx.new .read 3 c with inv := i },
    readNext := some ((Dx.new .read 3 c).next c), updTime := none, updEpoch := none }

theorem forge_cur {c : Cipher} {h : Hist} {i : Nat} (hk : h.k = forgeK c i) (hi : i ≠ 0) :
    h.step (.recv ⟨5, 0, 1⟩ 0) = .ok { h with k := forgeK c (i - 1), forged := h.forged + 1 } := by
  have hd : h.k.decrypt ⟨5, 0, 1⟩ 0 = (forgeK c (i - 1), ⟨false, .error .decrypt⟩) := by
    rw [hk]
    unfold K.decrypt
    rw [if_neg (by decide)]
    unfold K.decryptShort
    have hrx : (forgeK c i).rx (decide (5 % 2 = 0)) =
        some (.cur, { Dx.new .read 3 c with inv := i }) := by simp [K.rx, forgeK, Option.filter, Dx.phase, Dx.new, Dx.next]
    have hop : ∀ pn, K.openWith { Dx.new .read 3 c with inv := i } ⟨5, 0, 1⟩ pn =
        ({ Dx.new .read 3 c with inv := i - 1 }, some .decrypt) := by
      intro pn
      unfold K.openWith Dx.invoked
      rw [if_neg (show ¬ ({ Dx.new .read 3 c with inv := i } : Dx).inv = 0 from hi)]
      simp only
      rw [if_neg (show ¬ ((Dx.new .read 3 c).epoch = 5 ∧ pn = 0) by simp [Dx.new])]
    simp only [show (forgeK c i).read = some { Dx.new .read 3 c with inv := i } from rfl, hrx, hop]
    rfl
  simp only [Hist.step, hd]
  rfl

theorem forge_nxt {c : Cipher} {h : Hist} {i : Nat} (hk : h.k = forgeK c i) :
    ∃ k', h.step (.recv ⟨6, 0, 1⟩ 0) = .ok { h with k := k', forged := h.forged + 1 } := by
  have hd : ∃ k', h.k.decrypt ⟨6, 0, 1⟩ 0 = (k', ⟨false, .error .decrypt⟩) := by
    rw [hk]
    unfold K.decrypt
    rw [if_neg (by decide)]
    unfold K.decryptShort
    have hrx : (forgeK c i).rx (decide (6 % 2 = 0)) =
        some (.nxt, (Dx.new .read 3 c).next c) := by simp [K.rx, forgeK, Option.filter, Dx.phase, Dx.new, Dx.next]
    have hrx' : (forgeK c i).rx true = some (.nxt, (Dx.new .read 3 c).next c) := hrx
    have hop : ∀ pn, K.openWith ((Dx.new .read 3 c).next c) ⟨6, 0, 1⟩ pn =
        ({ (Dx.new .read 3 c).next c with inv := limit .read c - 1 }, some .decrypt) := by
      intro pn
      unfold K.openWith Dx.invoked
      rw [if_neg (show ¬ ((Dx.new .read 3 c).next c).inv = 0 by cases c <;> decide)]
      simp only
      rw [if_neg (show ¬ (((Dx.new .read 3 c).next c).epoch = 6 ∧ pn = 0) by simp [Dx.new, Dx.next])]
      rfl
    simp only [show (forgeK c i).read = some { Dx.new .read 3 c with inv := i } from rfl, hrx, hop]
    rw [show decide True = true from rfl, hrx']
    simp only [hop]
    exact ⟨_, rfl⟩
  obtain ⟨k', hd⟩ := hd
  refine ⟨k', ?_⟩
  simp only [Hist.step, hd]
  rfl

theorem forge_start (c : Cipher) : ∃ h, Hist.Reached c h ∧ h.k = forgeK c (limit .read c) ∧ h.forged = 0 := by
  have h0 := Hist.Reached.init (c := c)
  have h1 := h0.step (e := .setWrite) rfl rfl
  have h2 := h1.step (e := .setRead 0) ⟨(by intro h; cases h), rfl⟩ rfl
  exact ⟨_, h2, rfl, rfl⟩

theorem forge_many (c : Cipher) (m : Nat) (hm : m ≤ limit .read c) :
    ∃ h, Hist.Reached c h ∧ h.k = forgeK c (limit .read c - m) ∧ h.forged = m := by
  induction m with
  | zero => exact forge_start c
  | succ m ih =>
    obtain ⟨h, h1, h2, h3⟩ := ih (by omega)
    have hs := forge_cur h2 (by omega)
    refine ⟨_, h1.step (e := .recv ⟨5, 0, 1⟩ 0) trivial hs, ?_, ?_⟩
    · show forgeK c (limit .read c - m - 1) = _
      rw [Nat.sub_sub]
    · show h.forged + 1 = _
      rw [h3]

/-! ### But not by much -/

/-- Attempts left with 0-RTT read keys. -/
def K.zpot (k : K) : Nat :=
  match k.zero with
  | some z => if z.dir = .read then z.inv else 0
  | none => 0

structure FInv (L : Nat) (h : Hist) : Prop where
  unset : h.k.read = none → h.zeroSet = false → h.forged = 0 ∧ h.k.zpot = 0
  off : h.k.read = none → h.forged + h.k.zpot ≤ L
  on : ∀ r n, h.k.read = some r → h.k.readNext = some n →
    r.dir = .read ∧ n.dir = .read ∧ n.inv ≤ L ∧
    h.forged + h.k.zpot + r.inv + n.inv ≤ r.epoch * L

/-- Opening counts one attempt, or fails with an error that closes the connection. -/
theorem K.openWith_inv {d d' : Dx} {p : Wire} {pn : Nat} {e : Option KErr}
    (h : K.openWith d p pn = (d', e)) (hf : e ≠ some .exhausted) :
    d'.inv + 1 = d.inv ∧ d'.dir = d.dir ∧ d'.epoch = d.epoch := by
  unfold K.openWith at h
  split at h
  · exact absurd (congrArg Prod.snd h).symm hf
  · rename_i d₁ hi
    obtain ⟨rfl, hpos⟩ := Dx.invoked_some hi
    split at h
    · split at h
      · obtain ⟨rfl, _⟩ := Prod.mk.inj h
        exact ⟨by show d.inv - 1 + 1 = d.inv; omega, rfl, rfl⟩
      · rename_i d₂ hu
        obtain ⟨rfl, _⟩ := Prod.mk.inj h
        obtain ⟨_, u1, u2, _, u4, _⟩ := Dx.used_some hu
        exact ⟨by rw [u4]; show d.inv - 1 + 1 = d.inv; omega, u1, u2⟩
    · obtain ⟨rfl, _⟩ := Prod.mk.inj h
      exact ⟨by show d.inv - 1 + 1 = d.inv; omega, rfl, rfl⟩

theorem K.keyUpdateReceived_keys {k k' : K} {e t : Nat} (h : k.keyUpdateReceived e t = .ok k') :
    k'.read = k.read ∧ k'.readNext = k.readNext ∧ k'.zpot ≤ k.zpot := by
  unfold K.keyUpdateReceived at h
  split at h
  · obtain rfl := Except.ok.inj h; exact ⟨rfl, rfl, Nat.le_refl _⟩
  · simp only at h
    split at h
    · cases h
    · rename_i k₁ b hm
      have hk : k₁.read = k.read ∧ k₁.readNext = k.readNext ∧ k₁.zero = k.zero := by
        obtain ⟨_, w, r, _, _, h | h⟩ := K.maybeUpdateWrite_ok hm
        · rw [h.2.2]; exact ⟨rfl, rfl, rfl⟩
        · rw [h.2.2]; exact ⟨rfl, rfl, rfl⟩
      split at h
      · obtain rfl := Except.ok.inj h
        refine ⟨hk.1, hk.2.1, ?_⟩
        unfold K.zpot
        simp only
        by_cases hz : k₁.hasZeroRead = true
        · rw [if_pos hz]; exact Nat.zero_le _
        · rw [if_neg hz, hk.2.2]; exact Nat.le_refl _
      · cases h

theorem K.maybeRespond_keys {k k' : K} {d : Dx} {t : Nat} (h : k.maybeRespond d t = .ok k') :
    k'.read = k.read ∧ k'.readNext = k.readNext ∧ k'.zpot ≤ k.zpot := by
  unfold K.maybeRespond at h
  split at h
  · exact K.keyUpdateReceived_keys h
  · obtain rfl := Except.ok.inj h; exact ⟨rfl, rfl, Nat.le_refl _⟩

theorem K.checkOverlap_keys (k : K) :
    k.checkOverlap.1.read = k.read ∧ k.checkOverlap.1.zpot = k.zpot ∧
    (k.checkOverlap.1.readNext = none ↔ k.readNext = none) ∧
    (∀ n n', k.readNext = some n → k.checkOverlap.1.readNext = some n' →
      n'.dir = n.dir ∧ n'.inv = n.inv) := by
  unfold K.checkOverlap
  split
  · split
    · rename_i r n hr hn
      refine ⟨rfl, rfl, by rw [hn]; exact ⟨(fun h => by cases h), (fun h => by cases h)⟩, ?_⟩
      intro n₁ n' h1 h2
      rw [hn] at h1
      obtain rfl := Option.some.inj h1
      obtain rfl := Option.some.inj h2
      exact ⟨(Dx.continuation_facts n r).1, (Dx.continuation_facts n r).2.2.1⟩
    · refine ⟨rfl, rfl, Iff.rfl, ?_⟩
      intro n n' h1 h2
      have := h1.symm.trans h2
      obtain rfl := Option.some.inj this
      exact ⟨rfl, rfl⟩
  · refine ⟨rfl, rfl, Iff.rfl, ?_⟩
    intro n n' h1 h2
    have := h1.symm.trans h2
    obtain rfl := Option.some.inj this
    exact ⟨rfl, rfl⟩

theorem K.rx_total {k : K} {r n : Dx} (hr : k.read = some r) (hn : k.readNext = some n)
    (he : n.epoch = r.epoch + 1) (ph : Bool) : k.rx ph ≠ none := by
  unfold K.rx
  rw [hr, hn]
  by_cases h : r.phase = ph
  · have e1 : (some r).filter (fun d => d.phase = ph) = some r := by simp [Option.filter, h]
    have e2 : (some n).filter (fun d => d.phase = ph) = none := by
      simp only [Option.filter]
      rw [if_neg]
      simp only [decide_eq_true_eq]
      intro h2
      rw [← h] at h2
      unfold Dx.phase at h2
      simp only [decide_eq_decide] at h2
      omega
    rw [e1, e2]; simp
  · have e1 : (some r).filter (fun d => d.phase = ph) = none := by simp [Option.filter, h]
    have e2 : (some n).filter (fun d => d.phase = ph) = some n := by
      simp only [Option.filter]
      rw [if_pos]
      simp only [decide_eq_true_eq]
      unfold Dx.phase at *
      cases ph
      · simp only [decide_eq_false_iff_not, Decidable.not_not] at *; omega
      · simp only [decide_eq_true_eq] at *; omega
    rw [e1, e2]; simp

/-- What a received packet costs. -/
theorem K.decrypt_cost {k k' : K} {p : Wire} {t : Nat} {o : K.Outcome}
    (h : k.decrypt p t = (k', o)) (hf : o.res ≠ .error .exhausted)
    (hrn : ∀ r, k.read = some r → ∃ n, k.readNext = some n ∧ n.epoch = r.epoch + 1) :
    (k.read = none → k'.read = none ∧
      k'.zpot + (if o.res = .error .decrypt then 1 else 0) ≤ k.zpot) ∧
    (∀ r n, k.read = some r → k.readNext = some n →
      ∃ r' n', k'.read = some r' ∧ k'.readNext = some n' ∧ r'.dir = r.dir ∧ n'.dir = n.dir ∧
        r'.epoch = r.epoch ∧ r'.inv ≤ r.inv ∧ n'.inv ≤ n.inv ∧
        k'.zpot + r'.inv + n'.inv + (if o.res = .error .decrypt then 1 else 0) ≤
          k.zpot + r.inv + n.inv) := by
  -- the check afterwards
  have chk : ∀ (k₁ : K) (r₁ n₁ : Dx), k₁.read = some r₁ → k₁.readNext = some n₁ →
      ∃ n', k₁.checkOverlap.1.readNext = some n' ∧ n'.dir = n₁.dir ∧ n'.inv = n₁.inv := by
    intro k₁ r₁ n₁ h1 h2
    obtain ⟨_, _, c3, c4⟩ := K.checkOverlap_keys k₁
    cases hc : k₁.checkOverlap.1.readNext with
    | none => rw [c3.mp hc] at h2; cases h2
    | some n' => exact ⟨n', rfl, c4 n₁ n' h2 hc⟩
  have chkne : ∀ (k₁ k₂ : K) (e : KErr), k₁.checkOverlap = (k₂, some e) → e ≠ .decrypt := by
    intro k₁ k₂ e hc he
    subst he
    unfold K.checkOverlap at hc
    split at hc
    · split at hc
      · have := congrArg Prod.snd hc
        simp only at this
        split at this <;> cases this
      · cases hc
    · cases hc
  unfold K.decrypt at h
  split at h
  · -- 0-RTT
    unfold K.decryptZero at h
    split at h
    · obtain ⟨rfl, rfl⟩ := Prod.mk.inj h
      exact ⟨fun h => ⟨h, Nat.le_refl _⟩, fun r n h1 h2 =>
        ⟨r, n, h1, h2, rfl, rfl, rfl, Nat.le_refl _, Nat.le_refl _, Nat.le_refl _⟩⟩
    · rename_i z hz
      obtain ⟨hz1, hz2⟩ := Option.filter_eq_some_iff.mp hz
      simp only [decide_eq_true_eq] at hz2
      have hzp : k.zpot = z.inv := by unfold K.zpot; rw [hz1]; simp only; rw [if_pos hz2]
      simp only at h
      split at h
      · rename_i z' e ho
        obtain ⟨rfl, rfl⟩ := Prod.mk.inj h
        obtain ⟨o1, o2, o3⟩ := K.openWith_inv ho (fun he => hf (by rw [Option.some.inj he]))
        have hzp' : K.zpot { k with zero := some z' } = z'.inv := by
          unfold K.zpot; simp only; rw [if_pos (o2.trans hz2)]
        refine ⟨fun h => ⟨h, ?_⟩, fun r n h1 h2 =>
          ⟨r, n, h1, h2, rfl, rfl, rfl, Nat.le_refl _, Nat.le_refl _, ?_⟩⟩
        · rw [hzp, hzp']; split <;> omega
        · rw [hzp, hzp']; split <;> omega
      · rename_i z' ho
        obtain ⟨o1, o2, o3⟩ := K.openWith_inv ho (by simp)
        have hzp' : K.zpot { k with zero := some z' } = z'.inv := by
          unfold K.zpot; simp only; rw [if_pos (o2.trans hz2)]
        obtain ⟨c1, c2, c3, c4⟩ := K.checkOverlap_keys { k with zero := some z' }
        have key : ∀ (k₂ : K) (res : Except KErr Nat), k₂ = (K.checkOverlap { k with zero := some z' }).1 →
            res ≠ .error .decrypt →
            (k.read = none → k₂.read = none ∧
              k₂.zpot + (if res = .error .decrypt then 1 else 0) ≤ k.zpot) ∧
            (∀ r n, k.read = some r → k.readNext = some n →
              ∃ r' n', k₂.read = some r' ∧ k₂.readNext = some n' ∧ r'.dir = r.dir ∧
                n'.dir = n.dir ∧ r'.epoch = r.epoch ∧ r'.inv ≤ r.inv ∧ n'.inv ≤ n.inv ∧
                k₂.zpot + r'.inv + n'.inv + (if res = .error .decrypt then 1 else 0) ≤
                  k.zpot + r.inv + n.inv) := by
          intro k₂ res hk₂ hres
          subst hk₂
          rw [if_neg hres, c2, hzp, hzp']
          refine ⟨fun h => ⟨by rw [c1]; exact h, by omega⟩, fun r n h1 h2 => ?_⟩
          obtain ⟨n', d1, d2, d3⟩ := chk { k with zero := some z' } r n h1 h2
          exact ⟨r, n', by rw [c1]; exact h1, d1, rfl, d2, rfl, Nat.le_refl _, by omega, by omega⟩
        split at h
        · rename_i k₂ e hc
          obtain ⟨rfl, rfl⟩ := Prod.mk.inj h
          refine key _ _ (by rw [hc]) ?_
          simp only
          intro he
          exact chkne _ _ _ hc (Except.error.inj he)
        · rename_i k₂ hc
          obtain ⟨rfl, rfl⟩ := Prod.mk.inj h
          exact key _ _ (by rw [hc]) (by simp)
  · -- 1-RTT
    unfold K.decryptShort at h
    split at h
    · rename_i hr
      obtain ⟨rfl, rfl⟩ := Prod.mk.inj h
      exact ⟨fun h => ⟨h, Nat.le_refl _⟩, fun r n h1 => by rw [hr] at h1; cases h1⟩
    · rename_i r hr
      obtain ⟨n, hn, he⟩ := hrn r hr
      refine ⟨(fun h => by rw [hr] at h; cases h), fun r₀ n₀ h1 h2 => ?_⟩
      rw [hr] at h1
      rw [hn] at h2
      obtain rfl := Option.some.inj h1
      obtain rfl := Option.some.inj h2
      simp only at h
      split at h
      · rename_i hrx; exact absurd hrx (K.rx_total hr hn he _)
      · rename_i s d hrx
        generalize decodePn r.stop (truncate p.pn p.len) p.len = pn at h
        -- the keys after opening
        have opened : ∀ d' : Dx, d'.inv + 1 = d.inv → d'.dir = d.dir → d'.epoch = d.epoch →
            ∃ r' n', (k.setRx s d').read = some r' ∧ (k.setRx s d').readNext = some n' ∧
              r'.dir = r.dir ∧ n'.dir = n.dir ∧ r'.epoch = r.epoch ∧ r'.inv ≤ r.inv ∧
              n'.inv ≤ n.inv ∧ (k.setRx s d').zpot = k.zpot ∧ r'.inv + n'.inv + 1 = r.inv + n.inv := by
          intro d' e1 e2 e3
          rcases K.rx_some hrx with ⟨rfl, hd⟩ | ⟨rfl, hd⟩
          · rw [hr] at hd
            obtain rfl := Option.some.inj hd
            exact ⟨d', n, rfl, hn, e2, rfl, e3, by omega, Nat.le_refl _, rfl, by omega⟩
          · rw [hn] at hd
            obtain rfl := Option.some.inj hd
            exact ⟨r, d', hr, rfl, rfl, e2, rfl, Nat.le_refl _, by omega, rfl, by omega⟩
        split at h
        · rename_i d' e ho
          obtain ⟨rfl, rfl⟩ := Prod.mk.inj h
          obtain ⟨o1, o2, o3⟩ := K.openWith_inv ho (fun he => hf (by rw [Option.some.inj he]))
          obtain ⟨r', n', a1, a2, a3, a4, a5, a6, a7, a8, a9⟩ := opened d' o1 o2 o3
          refine ⟨r', n', a1, a2, a3, a4, a5, a6, a7, ?_⟩
          rw [a8]; split <;> omega
        · rename_i d' ho
          obtain ⟨o1, o2, o3⟩ := K.openWith_inv ho (by simp)
          obtain ⟨r', n', a1, a2, a3, a4, a5, a6, a7, a8, a9⟩ := opened d' o1 o2 o3
          split at h
          · obtain ⟨rfl, rfl⟩ := Prod.mk.inj h
            refine ⟨r', n', a1, a2, a3, a4, a5, a6, a7, ?_⟩
            rw [a8]; split <;> omega
          · rename_i k₁ hm
            obtain ⟨m1, m2, m3⟩ := K.maybeRespond_keys hm
            obtain ⟨n₂, d1, d2, d3⟩ := chk k₁ r' n' (m1.trans a1) (m2.trans a2)
            obtain ⟨c1, c2, _, _⟩ := K.checkOverlap_keys k₁
            split at h
            · rename_i k₂ e hc
              obtain ⟨rfl, rfl⟩ := Prod.mk.inj h
              rw [hc] at c1 c2 d1
              simp only at c1 c2 d1
              refine ⟨r', n₂, by rw [c1, m1, a1], d1, a3, d2.trans a4, a5, a6, by omega, ?_⟩
              split <;> omega
            · rename_i k₂ hc
              obtain ⟨rfl, rfl⟩ := Prod.mk.inj h
              rw [hc] at c1 c2 d1
              simp only at c1 c2 d1
              refine ⟨r', n₂, by rw [c1, m1, a1], d1, a3, d2.trans a4, a5, a6, by omega, ?_⟩
              split <;> omega

theorem FInv.congr {L : Nat} {h h' : Hist} (hi : FInv L h) (h1 : h'.k.read = h.k.read)
    (h2 : h'.k.readNext = h.k.readNext) (h3 : h'.k.zpot ≤ h.k.zpot) (h4 : h'.forged = h.forged)
    (h5 : h'.zeroSet = h.zeroSet) : FInv L h' := by
  refine ⟨?_, ?_, ?_⟩
  · rw [h1, h4, h5]; intro a b; have := hi.unset a b; exact ⟨this.1, by omega⟩
  · rw [h1, h4]; intro h; have := hi.off h; omega
  · rw [h1, h2, h4]
    intro r n a b
    have := hi.on r n a b
    exact ⟨this.1, this.2.1, this.2.2.1, by omega⟩

theorem FInv.step {c : Cipher} {h h' : Hist} {e : Ev} (hr : Hist.Reached c h)
    (hi : FInv (limit .read c) h) (hl : h.Legal e) (hs : h.step e = .ok h') :
    FInv (limit .read c) h' := by
  have cip : h.k.cipher = c := hr.inv.w.cip
  cases e with
  | setZero d =>
    obtain rfl := Except.ok.inj hs
    obtain ⟨l1, l2, l3⟩ := hl
    have hz : K.zpot (h.k.setZero d) ≤ limit .read c := by
      unfold K.zpot K.setZero
      simp only
      split
      · rename_i hd
        have hd : d = .read := hd
        subst hd
        show limit .read h.k.cipher ≤ _
        rw [cip]; exact Nat.le_refl _
      · exact Nat.zero_le _
    refine ⟨(fun _ h => by cases h), fun _ => ?_, fun r n h1 => ?_⟩
    · have := (hi.unset l2 l1).1
      show h.forged + K.zpot (h.k.setZero d) ≤ _
      omega
    · have h1 : h.k.read = some r := h1
      rw [l2] at h1; cases h1
  | reject =>
    simp only [Hist.step] at hs
    unfold K.discardZero at hs
    split at hs
    · cases hs
    · rename_i k hd
      split at hd
      · cases hd
      · obtain rfl := Except.ok.inj hd
        obtain rfl := Except.ok.inj hs
        exact hi.congr rfl rfl (Nat.zero_le _) rfl rfl
  | setWrite =>
    simp only [Hist.step] at hs
    split at hs
    · cases hs
    · rename_i k hd
      obtain rfl := Except.ok.inj hs
      unfold K.setWrite at hd
      split at hd
      · cases hd
      · simp only at hd
        split at hd
        · split at hd
          · split at hd
            · obtain rfl := Except.ok.inj hd; exact hi.congr rfl rfl (Nat.zero_le _) rfl rfl
            · cases hd
          · obtain rfl := Except.ok.inj hd; exact hi.congr rfl rfl (Nat.zero_le _) rfl rfl
        · obtain rfl := Except.ok.inj hd; exact hi.congr rfl rfl (Nat.le_refl _) rfl rfl
  | setRead t =>
    simp only [Hist.step] at hs
    split at hs
    · cases hs
    · rename_i k hd
      obtain rfl := Except.ok.inj hs
      obtain ⟨l1, l2⟩ := hl
      have h0 := hi.off l2
      have key : ∃ r : Dx, r.epoch = 3 ∧ r.dir = .read ∧ r.inv = limit .read c ∧
          k.read = some r ∧ k.readNext = some (r.next c) ∧ k.zpot = h.k.zpot := by
        unfold K.setRead at hd
        split at hd
        · cases hd
        · simp only at hd
          rw [cip] at hd
          split at hd
          · split at hd
            · split at hd
              · obtain rfl := Except.ok.inj hd; exact ⟨_, rfl, rfl, rfl, rfl, rfl, rfl⟩
              · cases hd
            · obtain rfl := Except.ok.inj hd; exact ⟨_, rfl, rfl, rfl, rfl, rfl, rfl⟩
          · obtain rfl := Except.ok.inj hd; exact ⟨_, rfl, rfl, rfl, rfl, rfl, rfl⟩
      obtain ⟨r, k1, k2, k3, k4, k5, k6⟩ := key
      refine ⟨fun h => ?_, fun h => ?_, fun r' n' e1 e2 => ?_⟩
      · have h : k.read = none := h
        rw [k4] at h; cases h
      · have h : k.read = none := h
        rw [k4] at h; cases h
      · have e1 : k.read = some r' := e1
        have e2 : k.readNext = some n' := e2
        rw [k4] at e1
        rw [k5] at e2
        obtain rfl := Option.some.inj e1
        obtain rfl := Option.some.inj e2
        have hin : (r.next c).inv = limit .read c := by
          unfold Dx.next; simp only; rw [if_pos k2, k3]
        refine ⟨k2, k2, by omega, ?_⟩
        show h.forged + k.zpot + r.inv + (r.next c).inv ≤ _
        rw [k1, hin, k3, k6]
        omega
  | send b =>
    simp only [Hist.step] at hs
    split at hs
    · obtain rfl := Except.ok.inj hs; exact hi
    · cases hs
    · rename_i k e pn hd
      obtain rfl := Except.ok.inj hs
      rcases K.send_ok hd with ⟨w, w', hw, he, rfl, rfl, ha⟩ | ⟨z, z', hw, hz, he, rfl, rfl, rfl⟩
      · rcases K.autoUpdate_ok ha with rfl | ⟨_, _, _, _, _, _, rfl⟩
        · exact hi.congr rfl rfl (Nat.le_refl _) rfl rfl
        · exact hi.congr rfl rfl (Nat.le_refl _) rfl rfl
      · refine hi.congr rfl rfl ?_ rfl rfl
        obtain ⟨hz1, hz2⟩ := Option.filter_eq_some_iff.mp hz
        simp only [decide_eq_true_eq] at hz2
        have := (Dx.encrypt_ok he).1
        show K.zpot { h.k with zero := some z' } ≤ _
        unfold K.zpot
        simp only
        rw [if_neg (by rw [this, hz2]; simp)]
        exact Nat.zero_le _
  | recv p t =>
    simp only [Hist.step] at hs
    have hrn : ∀ r, h.k.read = some r → ∃ n, h.k.readNext = some n ∧ n.epoch = r.epoch + 1 := by
      intro r h1
      obtain ⟨n, w, a1, a2, a3, a4⟩ := hr.inv.r.some r h1
      exact ⟨n, a1, a3.nep⟩
    have fin : ∀ (k' : K) (o : K.Outcome) (h₂ : Hist), h.k.decrypt p t = (k', o) →
        o.res ≠ .error .exhausted → h₂.k = k' → h₂.zeroSet = h.zeroSet →
        h₂.forged ≤ h.forged + (if o.res = .error .decrypt then 1 else 0) →
        FInv (limit .read c) h₂ := by
      intro k' o h₂ hd hf e1 e2 e3
      obtain ⟨d1, d2⟩ := K.decrypt_cost hd hf hrn
      subst e1
      cases hread : h.k.read with
      | none =>
        obtain ⟨d3, d4⟩ := d1 hread
        have i1 := hi.off hread
        refine ⟨fun _ hz => ?_, fun _ => by omega, fun r n h1 => by rw [d3] at h1; cases h1⟩
        -- nothing can be opened without keys
        rw [e2] at hz
        have i2 := hi.unset hread hz
        have i3 := i2.2
        by_cases hres : o.res = .error .decrypt
        · rw [if_pos hres] at d4; omega
        · rw [if_neg hres] at e3 d4; exact ⟨by omega, by omega⟩
      | some r =>
        obtain ⟨n, hn, _⟩ := hrn r hread
        obtain ⟨r', n', a1, a2, a3, a4, a5, a6, a7, a8⟩ := d2 r n hread hn
        obtain ⟨i1, i2, i3, i4⟩ := hi.on r n hread hn
        refine ⟨(fun h1 => by rw [a1] at h1; cases h1), (fun h1 => by rw [a1] at h1; cases h1),
          fun r₂ n₂ e4 e5 => ?_⟩
        rw [a1] at e4
        rw [a2] at e5
        obtain rfl := Option.some.inj e4
        obtain rfl := Option.some.inj e5
        refine ⟨a3.trans i1, a4.trans i2, by omega, ?_⟩
        rw [a5]
        omega
    split at hs
    · rename_i k' o pn hd
      obtain rfl := Except.ok.inj hs
      exact fin _ _ _ hd (by simp) rfl rfl (by simp)
    · rename_i k' o e hd
      split at hs
      · cases hs
      · rename_i hf
        obtain rfl := Except.ok.inj hs
        refine fin _ _ _ hd ?_ rfl rfl ?_
        · intro he
          have he : e = .exhausted := Except.error.inj he
          subst he
          exact hf rfl
        · show (if e = .decrypt then h.forged + 1 else h.forged) ≤ h.forged + (if (Except.error e : Except KErr Nat) = .error .decrypt then 1 else 0)
          by_cases he : e = .decrypt
          · rw [if_pos he, if_pos (by rw [he])]; exact Nat.le_refl _
          · rw [if_neg he]; exact Nat.le_add_right _ _
  | initiate la =>
    simp only [Hist.step] at hs
    split at hs
    · obtain rfl := Except.ok.inj hs; exact hi
    · cases hs
    · rename_i k hd
      obtain rfl := Except.ok.inj hs
      obtain ⟨w, r, _, _, _, _, _, rfl⟩ := K.initiate_ok hd
      exact hi.congr rfl rfl (Nat.le_refl _) rfl rfl
  | tick now =>
    simp only [Hist.step] at hs
    split at hs
    · cases hs
    · rename_i k hd
      obtain rfl := Except.ok.inj hs
      unfold K.checkKeyUpdate at hd
      split at hd
      · obtain rfl := Except.ok.inj hd; exact hi
      · rename_i tt htt
        split at hd
        · obtain rfl := Except.ok.inj hd; exact hi
        · split at hd
          · obtain rfl := Except.ok.inj hd; exact hi.congr rfl rfl (Nat.zero_le _) rfl rfl
          · split at hd
            · cases hd
            · rename_i n hn
              obtain rfl := Except.ok.inj hd
              refine ⟨(fun h1 => by cases h1), (fun h1 => by cases h1), fun r₂ n₂ e1 e2 => ?_⟩
              obtain rfl := Option.some.inj e1
              obtain rfl := Option.some.inj e2
              cases hread : h.k.read with
              | none =>
                have := (hr.inv.r.none hread).1
                rw [hn] at this; cases this
              | some r =>
                obtain ⟨n', w, a1, a2, a3, a4⟩ := hr.inv.r.some r hread
                rw [hn] at a1
                obtain rfl := Option.some.inj a1
                obtain ⟨i1, i2, i3, i4⟩ := hi.on r n hread hn
                have hin : (n.next h.k.cipher).inv = n.inv := by
                  unfold Dx.next; simp only; rw [if_pos i2]
                refine ⟨i2, i2, by omega, ?_⟩
                show h.forged + h.k.zpot + n.inv + (n.next h.k.cipher).inv ≤ _
                rw [hin, a3.nep, Nat.add_mul, Nat.one_mul]
                omega

theorem Hist.Reached.finv {c : Cipher} {h : Hist} (hr : Hist.Reached c h) :
    FInv (limit .read c) h := by
  induction hr with
  | init => exact ⟨fun _ _ => ⟨rfl, rfl⟩, fun _ => Nat.zero_le _, fun r n h => by cases h⟩
  | step hr hl hs ih => exact ih.step hr hl hs

end Neqo.Keys
