import Verif.Keys.Forge

/-!
Lemmas: the state in which nothing more is accepted, and which errors a step can end in.
-/

namespace Neqo.Keys

/-! ### Nothing more is accepted -/

/-- The old read keys were used for a number above the first one of the new keys. -/
structure Stuck (T : Nat) (h : Hist) : Prop where
  zero : h.k.zero = none
  time : h.k.updTime = some T
  write : h.k.write ≠ none
  keys : ∃ r n, h.k.read = some r ∧ h.k.readNext = some n ∧ n.start < n.stop ∧ n.start < r.stop

theorem K.maybeRespond_busy {k k' : K} {d : Dx} {t T : Nat} (ht : k.updTime = some T)
    (h : k.maybeRespond d t = .ok k') : k' = k := by
  unfold K.maybeRespond at h
  split at h
  · unfold K.keyUpdateReceived at h
    split at h
    · exact (Except.ok.inj h).symm
    · simp only at h
      split at h
      · cases h
      · rename_i k₁ b hm
        have := (K.maybeUpdateWrite_ok hm).1
        simp only at this
        rw [ht] at this; cases this
  · exact (Except.ok.inj h).symm

/-- A received packet leaves the state stuck and is not accepted. -/
theorem Stuck.decrypt {T : Nat} {h : Hist} {k' : K} {p : Wire} {t : Nat} {o : K.Outcome}
    (hs : Stuck T h) (hd : h.k.decrypt p t = (k', o)) :
    (∀ pn, o.res ≠ .ok pn) ∧ (∀ h' : Hist, h'.k = k' → Stuck T h') := by
  obtain ⟨r, n, hr, hn, h1, h2⟩ := hs.keys
  have same : ∀ h' : Hist, h'.k = h.k → Stuck T h' := by
    intro h' e
    exact ⟨by rw [e]; exact hs.zero, by rw [e]; exact hs.time, by rw [e]; exact hs.write,
      by rw [e]; exact hs.keys⟩
  unfold K.decrypt at hd
  split at hd
  · unfold K.decryptZero at hd
    rw [hs.zero] at hd
    obtain ⟨rfl, rfl⟩ := Prod.mk.inj hd
    exact ⟨fun pn => by simp, same⟩
  · unfold K.decryptShort at hd
    rw [hr] at hd
    simp only at hd
    split at hd
    · obtain ⟨rfl, rfl⟩ := Prod.mk.inj hd
      exact ⟨fun pn => by simp, same⟩
    · rename_i s d hrx
      generalize decodePn r.stop (truncate p.pn p.len) p.len = pn at hd
      have keep : ∀ d' : Dx, d.stop ≤ d'.stop → (d.start < d.stop → d'.start = d.start) →
          ∃ r₁ n₁, (h.k.setRx s d').read = some r₁ ∧ (h.k.setRx s d').readNext = some n₁ ∧
            n₁.start < n₁.stop ∧ n₁.start < r₁.stop := by
        intro d' a b
        rcases K.rx_some hrx with ⟨rfl, hx⟩ | ⟨rfl, hx⟩
        · rw [hr] at hx
          obtain rfl := Option.some.inj hx
          exact ⟨d', n, rfl, hn, h1, by omega⟩
        · rw [hn] at hx
          obtain rfl := Option.some.inj hx
          have := b h1
          exact ⟨r, d', hr, rfl, by omega, by omega⟩
      have rest : ∀ d', (h.k.setRx s d').zero = none ∧ (h.k.setRx s d').updTime = some T ∧
          (h.k.setRx s d').write ≠ none := by
        intro d'
        cases s <;> exact ⟨hs.zero, hs.time, hs.write⟩
      split at hd
      · rename_i d' e ho
        obtain ⟨rfl, rfl⟩ := Prod.mk.inj hd
        refine ⟨fun pn => by simp, fun h' e' => ?_⟩
        have hd' : d'.stop = d.stop ∧ d'.start = d.start := by
          unfold K.openWith at ho
          split at ho
          · obtain ⟨rfl, _⟩ := Prod.mk.inj ho; exact ⟨rfl, rfl⟩
          · rename_i d₁ hi
            obtain ⟨rfl, _⟩ := Dx.invoked_some hi
            split at ho
            · split at ho
              · obtain ⟨rfl, _⟩ := Prod.mk.inj ho; exact ⟨rfl, rfl⟩
              · cases ho
            · obtain ⟨rfl, _⟩ := Prod.mk.inj ho; exact ⟨rfl, rfl⟩
        obtain ⟨a, b, c⟩ := rest d'
        have := keep d' (by omega) (fun _ => hd'.2)
        exact ⟨by rw [e']; exact a, by rw [e']; exact b, by rw [e']; exact c, by rw [e']; exact this⟩
      · rename_i d' ho
        obtain ⟨o1, o2, o3, o4, o5, o6, o7, o8, o9⟩ := K.openWith_none ho
        obtain ⟨r₁, n₁, b1, b2, b3, b4⟩ := keep d' (by omega) (fun hlt => by
          rw [o9, if_neg (by omega)])
        obtain ⟨z1, z2, z3⟩ := rest d'
        split at hd
        · obtain ⟨rfl, rfl⟩ := Prod.mk.inj hd
          refine ⟨fun pn => by simp, fun h' e' => ?_⟩
          exact ⟨by rw [e']; exact z1, by rw [e']; exact z2, by rw [e']; exact z3,
            by rw [e']; exact ⟨r₁, n₁, b1, b2, b3, b4⟩⟩
        · rename_i k₁ hm
          obtain rfl := K.maybeRespond_busy z2 hm
          have hc := K.checkOverlap_eq b1 b2
          rw [if_pos (by rw [z2]; rfl)] at hc
          obtain ⟨c1, c2, c3, c4, c5⟩ := Dx.continuation_facts n₁ r₁
          have c6 : (n₁.continuation r₁).1.start = n₁.start ∧
              (n₁.continuation r₁).1.stop = n₁.stop ∧ (n₁.continuation r₁).2 = false := by
            rcases c5 with c | c | c
            · omega
            · exact c.2.2
            · omega
          rw [c6.2.2] at hc
          rw [hc] at hd
          obtain ⟨rfl, rfl⟩ := Prod.mk.inj hd
          refine ⟨fun pn => by simp, fun h' e' => ?_⟩
          refine ⟨by rw [e']; exact z1, by rw [e']; exact z2, by rw [e']; exact z3, ?_⟩
          rw [e']
          exact ⟨r₁, (n₁.continuation r₁).1, b1, rfl, by omega, by omega⟩

/-- Time stays below a point. -/
def Before (T : Nat) : Ev → Prop
  | .tick t => t < T
  | _ => True

theorem Stuck.step {T : Nat} {h h' : Hist} {e : Ev} (hs : Stuck T h) (hl : h.Legal e)
    (hb : Before T e) (hst : h.step e = .ok h') : Stuck T h' ∧ h'.accepted = h.accepted := by
  obtain ⟨r, n, hr, hn, h1, h2⟩ := hs.keys
  cases e with
  | setZero d => rw [hl.2.1] at hr; cases hr
  | reject => rw [show h.k.read = none from hl] at hr; cases hr
  | setWrite => exact absurd hl hs.write
  | setRead t => rw [hl.2] at hr; cases hr
  | send b =>
    simp only [Hist.step] at hst
    split at hst
    · obtain rfl := Except.ok.inj hst; exact ⟨hs, rfl⟩
    · cases hst
    · rename_i k e pn hd
      obtain rfl := Except.ok.inj hst
      rcases K.send_ok hd with ⟨w, w', hw, he, rfl, rfl, ha⟩ | ⟨z, z', hw, _⟩
      · rcases K.autoUpdate_ok ha with rfl | ⟨_, _, hu, _⟩
        · exact ⟨⟨hs.zero, hs.time, by simp, hs.keys⟩, rfl⟩
        · have hu : h.k.updTime = none := hu
          rw [hs.time] at hu; cases hu
      · exact absurd hw hs.write
  | recv p t =>
    simp only [Hist.step] at hst
    split at hst
    · rename_i k o pn hd
      exact absurd rfl ((hs.decrypt hd).1 pn)
    · rename_i k o e hd
      split at hst
      · cases hst
      · obtain rfl := Except.ok.inj hst
        exact ⟨(hs.decrypt hd).2 _ rfl, rfl⟩
  | initiate la =>
    simp only [Hist.step] at hst
    split at hst
    · obtain rfl := Except.ok.inj hst; exact ⟨hs, rfl⟩
    · cases hst
    · rename_i k hd
      obtain ⟨_, _, hu, _⟩ := K.initiate_ok hd
      rw [hs.time] at hu; cases hu
  | tick t =>
    simp only [Hist.step] at hst
    unfold K.checkKeyUpdate at hst
    rw [hs.time] at hst
    simp only at hst
    rw [if_pos (show t < T from hb)] at hst
    obtain rfl := Except.ok.inj hst
    exact ⟨hs, rfl⟩

theorem Stuck.run {T : Nat} {es : List Ev} : ∀ {h h' : Hist}, Stuck T h →
    (∀ e ∈ es, Before T e) → h.run es = some h' → h'.accepted = h.accepted := by
  induction es with
  | nil => intro h h' _ _ hr; rw [Hist.run] at hr; rw [Option.some.inj hr]
  | cons e es ih =>
    intro h h' hs hb hr
    rw [Hist.run] at hr
    split at hr
    · rename_i hl
      split at hr
      · rename_i h₁ hst
        obtain ⟨a, b⟩ := hs.step hl (hb e List.mem_cons_self) hst
        rw [ih a (fun e he => hb e (List.mem_cons_of_mem _ he)) hr, b]
      · cases hr
    · cases hr

/-! ### Errors -/

theorem K.idle_time {k : K} {acc : List (Nat × Nat)} {op : List Nat} (_hi : RInv k acc op)
    (hz : k.hasZeroRead = false) (hb : k.busy = false) : k.updTime = none := by
  unfold K.busy at hb
  rw [hz] at hb
  cases hk : k.updTime with
  | none => rfl
  | some t => rw [hk] at hb; cases hb

theorem Dx.encrypt_err {d : Dx} {b : Nat} {e : KErr} (hm : d.minPn ≤ d.stop)
    (h : d.encrypt b = .error e) : e = .exhausted := by
  unfold Dx.encrypt at h
  split at h
  · exact (Except.error.inj h).symm
  · rename_i d₁ hi
    obtain ⟨rfl, _⟩ := Dx.invoked_some hi
    have hen : (d.enlarge b).minPn = d.minPn ∧ (d.enlarge b).stop = d.stop := by
      unfold Dx.enlarge; split <;> exact ⟨rfl, rfl⟩
    split at h
    · rename_i hu
      unfold Dx.used at hu
      rw [if_neg (by show ¬ (d.enlarge b).stop < (d.enlarge b).minPn; omega)] at hu
      cases hu
    · cases h

/-- Receiving does not panic without 0-RTT read keys. -/
theorem RInv.no_panic {k k' : K} {acc : List (Nat × Nat)} {op : List Nat} {p : Wire} {t : Nat}
    {o : K.Outcome} (hi : RInv k acc op) (hz : k.hasZeroRead = false)
    (h : k.decrypt p t = (k', o)) : o.res ≠ .error .panic := by
  intro hres
  unfold K.decrypt at h
  split at h
  · unfold K.decryptZero at h
    split at h
    · obtain ⟨_, rfl⟩ := Prod.mk.inj h; cases hres
    · rename_i z hz'
      obtain ⟨z1, z2⟩ := Option.filter_eq_some_iff.mp hz'
      unfold K.hasZeroRead at hz
      rw [z1] at hz
      simp only at hz
      rw [hz] at z2; cases z2
  · unfold K.decryptShort at h
    split at h
    · obtain ⟨_, rfl⟩ := Prod.mk.inj h; cases hres
    · rename_i r hr
      obtain ⟨n, w, hn, hw, rd, hzz⟩ := hi.some r hr
      simp only at h
      split at h
      · obtain ⟨_, rfl⟩ := Prod.mk.inj h; cases hres
      · rename_i s d hrx
        generalize decodePn r.stop (truncate p.pn p.len) p.len = pn at h
        split at h
        · rename_i d' e ho
          obtain ⟨_, rfl⟩ := Prod.mk.inj h
          obtain rfl := Except.error.inj hres
          unfold K.openWith at ho
          split at ho
          · cases ho
          · split at ho
            · split at ho <;> cases ho
            · cases ho
        · rename_i d' ho
          obtain ⟨o1, o2, o3, o4, o5, o6, o7, o8, o9⟩ := K.openWith_none ho
          have hfacts : (k.setRx s d').updTime = k.updTime ∧ (k.setRx s d').updEpoch = k.updEpoch ∧
              (k.setRx s d').hasZeroRead = k.hasZeroRead ∧ (k.setRx s d').write = Option.some w ∧
              ∃ r₁, (k.setRx s d').read = Option.some r₁ := by
            rcases K.rx_some hrx with ⟨rfl, _⟩ | ⟨rfl, _⟩
            · exact ⟨rfl, rfl, rfl, hw, d', rfl⟩
            · exact ⟨rfl, rfl, rfl, hw, r, hr⟩
          obtain ⟨f1, f2, f3, f4, r₁, f5⟩ := hfacts
          -- the response cannot fail
          have hok : ∀ e, (k.setRx s d').maybeRespond d' t ≠ .error e := by
            intro e hm
            cases hb : k.busy with
            | true =>
              have hue := (rd.busy hb).2.2.1
              have hle : d'.epoch ≤ n.epoch := by
                rcases K.rx_some hrx with ⟨rfl, hx⟩ | ⟨rfl, hx⟩
                · rw [hr] at hx
                  obtain rfl := Option.some.inj hx
                  have := rd.nep; omega
                · rw [hn] at hx
                  obtain rfl := Option.some.inj hx
                  omega
              have := K.respond_old (k := k.setRx s d') (d := d') (t := t)
                (.inr ⟨_, f2.trans hue, hle⟩)
              rw [this] at hm; cases hm
            | false =>
              have hu := K.idle_time hi hz hb
              unfold K.maybeRespond at hm
              split at hm
              · unfold K.keyUpdateReceived at hm
                split at hm
                · cases hm
                · simp only at hm
                  split at hm
                  · rename_i e' hmu
                    unfold K.maybeUpdateWrite at hmu
                    simp only at hmu
                    rw [f1, hu, f4, f5] at hmu
                    simp only [Option.isSome_none, Bool.false_eq_true, if_false] at hmu
                    split at hmu <;> cases hmu
                  · rename_i k₁ b hmu
                    have hk₁ : k₁.updTime = Option.none ∧ k₁.hasZeroRead = false := by
                      obtain ⟨m1, _, _, _, _, m | m⟩ := K.maybeUpdateWrite_ok hmu
                      · rw [m.2.2]; exact ⟨m1, f3.trans hz⟩
                      · rw [m.2.2]; exact ⟨m1, f3.trans hz⟩
                    rw [if_pos (by rw [hk₁.1, hk₁.2]; rfl)] at hm
                    cases hm
              · cases hm
          split at h
          · rename_i e hm; exact hok e hm
          · rename_i k₁ hm
            split at h
            · rename_i k₂ e hc
              obtain ⟨_, rfl⟩ := Prod.mk.inj h
              obtain rfl := Except.error.inj hres
              unfold K.checkOverlap at hc
              split at hc
              · split at hc
                · have := congrArg Prod.snd hc
                  simp only at this
                  split at this <;> cases this
                · cases hc
              · cases hc
            · obtain ⟨_, rfl⟩ := Prod.mk.inj h; cases hres

end Neqo.Keys
