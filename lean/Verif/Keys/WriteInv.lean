import Verif.Keys.Spec

/-!
The invariant behind the statements about protecting packets: what the write keys and the record
of protected packets have to do with each other.
-/

namespace Neqo.Keys

/-- The number of packets protected with a key. -/
def uses (sent : List (Nat × Nat)) (e : Nat) : Nat := (sent.filter (fun x => x.1 = e)).length

theorem uses_cons (x : Nat × Nat) (l : List (Nat × Nat)) (e : Nat) :
    uses (x :: l) e = (if x.1 = e then 1 else 0) + uses l e := by
  unfold uses
  rw [List.filter_cons]
  by_cases h : x.1 = e
  · rw [if_pos (by simpa using h), if_pos h, List.length_cons]; omega
  · rw [if_neg (by simpa using h), if_neg h]; omega

theorem uses_zero {l : List (Nat × Nat)} {e : Nat} (h : ∀ x ∈ l, x.1 ≠ e) : uses l e = 0 := by
  unfold uses
  rw [List.length_eq_zero_iff, List.filter_eq_nil_iff]
  intro x hx
  simpa using h x hx

/-- 0-RTT keys for writing, if any. -/
def K.wz (k : K) : Option Dx := k.zero.filter (fun z => z.dir = .write)

/-- Newer and older packets. -/
def After (new old : Nat × Nat) : Prop :=
  old.1 ≤ new.1 ∧ (old.1 = new.1 ∨ 3 ≤ old.1 → old.2 < new.2)

/-- A write key and the record. -/
structure WKey (c : Cipher) (d : Dx) (sent : List (Nat × Nat)) : Prop where
  dir : d.dir = .write
  min : d.minPn ≤ d.stop
  start : d.start ≤ d.stop
  range : ∀ pn, d.start ≤ pn → pn < d.stop → (d.epoch, pn) ∈ sent
  cnt : uses sent d.epoch + d.inv ≤ limit .write c

/-- The invariant. -/
structure WInv (c : Cipher) (k : K) (sent : List (Nat × Nat)) (zeroSet rejected : Bool) : Prop where
  cip : k.cipher = c
  epochs : ∀ x ∈ sent, x.1 = 1 ∨ 3 ≤ x.1
  wnone : k.write = none → ∀ x ∈ sent, x.1 = 1
  wkey : ∀ w, k.write = some w → WKey c w sent ∧ 3 ≤ w.epoch ∧
    (∀ x ∈ sent, 3 ≤ x.1 → x.1 ≤ w.epoch ∧ x.2 < w.stop) ∧
    (rejected = false → ∀ x ∈ sent, x.2 < w.stop)
  zkey : ∀ z, k.wz = some z → WKey c z sent ∧ z.epoch = 1 ∧ k.write = none ∧
    (∀ x ∈ sent, x.2 < z.stop)
  early : k.write = none → rejected = false → sent = [] ∨ k.wz ≠ none
  unset : zeroSet = false → k.wz = none ∧ ∀ x ∈ sent, x.1 ≠ 1
  limits : ∀ e, uses sent e ≤ limit .write c
  order : sent.Pairwise After
  strict : rejected = false → sent.Pairwise (fun new old => old.2 < new.2)

theorem WInv.init (c : Cipher) : WInv c (K.init c) [] false false where
  cip := rfl
  epochs := by simp
  wnone := by simp
  wkey := by intro w h; cases h
  zkey := by intro w h; cases h
  early := by intro _ _; exact .inl rfl
  unset := by intro _; exact ⟨rfl, by simp⟩
  limits := by intro e; exact Nat.zero_le _
  order := .nil
  strict := by intro _; exact .nil

theorem Dx.invoked_some {d d' : Dx} (h : d.invoked = some d') :
    d' = { d with inv := d.inv - 1 } ∧ 0 < d.inv := by
  unfold Dx.invoked at h
  split at h
  · cases h
  · rename_i h0; exact ⟨(Option.some.inj h).symm, by omega⟩

theorem Dx.used_some {d d' : Dx} {pn : Nat} (h : d.used pn = some d') :
    d.minPn ≤ pn ∧ d'.dir = d.dir ∧ d'.epoch = d.epoch ∧ d'.minPn = d.minPn ∧ d'.inv = d.inv ∧
    d'.stop = max (pn + 1) d.stop ∧ d'.start = (if d.start = d.stop then pn else d.start) := by
  unfold Dx.used at h
  split at h
  · cases h
  · rename_i h0
    have := (Option.some.inj h).symm
    subst this
    by_cases hc : d.start = d.stop
    · simp only [if_pos hc, and_true]; omega
    · simp only [if_neg hc, and_true]; omega

theorem Dx.encrypt_ok {d d' : Dx} {b : Nat} (h : d.encrypt b = .ok d') :
    d'.dir = d.dir ∧ d'.epoch = d.epoch ∧ d'.minPn = d.minPn ∧ d'.stop = d.stop + 1 ∧
    d'.start = d.start ∧ d'.inv < d.inv ∧ d.minPn ≤ d.stop := by
  unfold Dx.encrypt at h
  have hen : (d.enlarge b).dir = d.dir ∧ (d.enlarge b).epoch = d.epoch ∧
      (d.enlarge b).minPn = d.minPn ∧ (d.enlarge b).stop = d.stop ∧
      (d.enlarge b).start = d.start ∧ (d.enlarge b).inv ≤ d.inv := by
    unfold Dx.enlarge
    split
    · exact ⟨rfl, rfl, rfl, rfl, rfl, Nat.div_le_self _ _⟩
    · exact ⟨rfl, rfl, rfl, rfl, rfl, Nat.le_refl _⟩
  generalize d.enlarge b = d₁ at *
  obtain ⟨e1, e2, e3, e4, e5, e6⟩ := hen
  split at h
  · cases h
  · rename_i d₂ hi
    obtain ⟨rfl, hpos⟩ := Dx.invoked_some hi
    split at h
    · cases h
    · rename_i d₃ hu
      obtain rfl := Except.ok.inj h
      obtain ⟨u0, u1, u2, u3, u4, u5, u6⟩ := Dx.used_some hu
      simp only at u0 u1 u2 u3 u4 u5 u6
      refine ⟨u1.trans e1, u2.trans e2, u3.trans e3, by omega, ?_, by omega, by omega⟩
      rw [u6]
      split <;> omega

theorem WKey.encrypt {c : Cipher} {d d' : Dx} {sent : List (Nat × Nat)} {b : Nat}
    (hk : WKey c d sent) (h : d.encrypt b = .ok d') : WKey c d' ((d.epoch, d.stop) :: sent) := by
  obtain ⟨e1, e2, e3, e4, e5, e6, e7⟩ := Dx.encrypt_ok h
  refine ⟨e1.trans hk.dir, by omega, by have := hk.start; omega, ?_, ?_⟩
  · intro pn h1 h2
    rw [e2]
    by_cases hp : pn = d.stop
    · rw [hp]; exact List.mem_cons_self
    · exact List.mem_cons_of_mem _ (hk.range pn (by omega) (by omega))
  · have := hk.cnt
    rw [e2, uses_cons, if_pos rfl]; omega

/-- Moving to the next key. -/
theorem WInv.update {c : Cipher} {k k' : K} {sent : List (Nat × Nat)} {zs rj : Bool} {w : Dx}
    (hi : WInv c k sent zs rj) (hw : k.write = some w) (hw' : k'.write = some (w.next c))
    (hc : k'.cipher = k.cipher) (hz : k'.wz = k.wz) : WInv c k' sent zs rj := by
  obtain ⟨wk, w3, wb, wr⟩ := hi.wkey w hw
  refine ⟨hc.trans hi.cip, hi.epochs, (by rw [hw']; intro h; cases h), ?_, ?_,
    (by rw [hw']; intro h; cases h), by rw [hz]; exact hi.unset, hi.limits, hi.order, hi.strict⟩
  · intro w' h'
    rw [hw'] at h'
    obtain rfl := Option.some.inj h'
    refine ⟨⟨wk.dir, Nat.le_refl _, Nat.le_refl _, ?_, ?_⟩, by show 3 ≤ w.epoch + 1; omega, ?_, wr⟩
    · intro pn h1 h2
      have h1' : w.stop ≤ pn := h1
      have h2' : pn < w.stop := h2
      omega
    · have : uses sent (w.next c).epoch = 0 := uses_zero (by
        intro x hx hxe
        have hxe' : x.1 = w.epoch + 1 := hxe
        have := (wb x hx (by omega)).1
        omega)
      rw [this]
      show 0 + (if w.dir = .read then w.inv else limit .write c) ≤ _
      rw [if_neg (by rw [wk.dir]; exact fun h => by cases h)]
      omega
    · intro x hx h3
      obtain ⟨a, b⟩ := wb x hx h3
      exact ⟨by show x.1 ≤ w.epoch + 1; omega, b⟩
  · intro z h
    rw [hz] at h
    obtain ⟨_, _, hn, _⟩ := hi.zkey z h
    rw [hw] at hn; cases hn

/-- Only the write keys matter. -/
theorem WInv.congr {c : Cipher} {k k' : K} {sent : List (Nat × Nat)} {zs rj : Bool}
    (hi : WInv c k sent zs rj) (hw : k'.write = k.write)
    (hc : k'.cipher = k.cipher) (hz : k'.wz = k.wz) : WInv c k' sent zs rj := by
  refine ⟨hc.trans hi.cip, hi.epochs, ?_, ?_, ?_, ?_, ?_, hi.limits, hi.order, hi.strict⟩
  · rw [hw]; exact hi.wnone
  · rw [hw]; exact hi.wkey
  · rw [hw, hz]; exact hi.zkey
  · rw [hw, hz]; exact hi.early
  · rw [hz]; exact hi.unset

theorem WInv.setZero {c : Cipher} {k : K} {sent : List (Nat × Nat)} {rj : Bool} {d : Dir}
    (hi : WInv c k sent false rj) (hd : d = .write → k.write = none) :
    WInv c (k.setZero d) sent true rj := by
  obtain ⟨hz, h1⟩ := hi.unset rfl
  cases d with
  | read =>
    have hz' : (k.setZero .read).wz = none := rfl
    refine ⟨hi.cip, hi.epochs, hi.wnone, hi.wkey, ?_, ?_, ?_, hi.limits, hi.order, hi.strict⟩
    · rw [hz']; intro z h; cases h
    · rw [hz']; intro a b; exact .inl ((hi.early a b).resolve_right (fun h => h hz))
    · intro h; cases h
  | write =>
    have hwn := hd rfl
    have hs : sent = [] := by
      cases hs : sent with
      | nil => rfl
      | cons x l =>
        have hx : x ∈ sent := by rw [hs]; exact List.mem_cons_self
        exact absurd (hi.wnone hwn x hx) (h1 x hx)
    subst hs
    have hz' : (k.setZero .write).wz = some (Dx.new .write 1 k.cipher) := rfl
    refine ⟨hi.cip, by simp, by simp, hi.wkey, ?_, ?_, ?_, hi.limits, .nil, fun _ => .nil⟩
    · rw [hz']
      intro z h
      obtain rfl := Option.some.inj h
      refine ⟨⟨rfl, Nat.le_refl _, Nat.le_refl _, ?_, ?_⟩, rfl, hwn, by simp⟩
      · intro pn _ h2; exact absurd h2 (Nat.not_lt_zero _)
      · rw [hi.cip]; show 0 + limit .write c ≤ _; omega
    · intro _ _; exact .inl rfl
    · intro h; cases h

theorem Dx.continuation_new (d : Dir) (e : Nat) (c : Cipher) (z : Dx) :
    (Dx.new d e c).continuation z =
      ({ Dx.new d e c with minPn := z.stop, start := z.stop, stop := z.stop }, true) := rfl

theorem WInv.setWrite {c : Cipher} {k k' : K} {sent : List (Nat × Nat)} {zs rj : Bool}
    (hi : WInv c k sent zs rj) (h : k.setWrite = .ok k') : WInv c k' sent zs rj := by
  unfold K.setWrite at h
  split at h
  · cases h
  · rename_i hw
    have hwn : k.write = none := by cases hk : k.write <;> simp_all
    have hall := hi.wnone hwn
    -- whatever the new range starts with
    have key : ∀ (d : Dx), d.dir = .write → d.epoch = 3 → d.start = d.stop → d.minPn = d.stop →
        d.inv = limit .write c → (rj = false → ∀ x ∈ sent, x.2 < d.stop) →
        k'.write = some d → k'.wz = none → k'.cipher = k.cipher → WInv c k' sent zs rj := by
      intro d d1 d2 d3 d4 d5 d6 k1 k2 k3
      refine ⟨k3.trans hi.cip, hi.epochs, (by rw [k1]; intro h; cases h), ?_,
        (by rw [k2]; intro z h; cases h), (by rw [k1]; intro h; cases h),
        fun hz => ⟨k2, (hi.unset hz).2⟩, hi.limits, hi.order, hi.strict⟩
      intro w hw'
      rw [k1] at hw'
      obtain rfl := Option.some.inj hw'
      refine ⟨⟨d1, by omega, by omega, by intro pn _ _; omega, ?_⟩, by omega, ?_, d6⟩
      · rw [uses_zero (by intro x hx; rw [hall x hx, d2]; decide), d5]; omega
      · intro x hx h3
        have := hall x hx
        omega
    simp only at h
    split at h
    · rename_i z hz
      split at h
      · rename_i hzd
        rw [Dx.continuation_new] at h
        simp only [if_true] at h
        obtain rfl := Except.ok.inj h
        refine key _ rfl rfl rfl rfl (by rw [hi.cip]; rfl) ?_ rfl rfl rfl
        intro _
        have hwz : k.wz = some z := by unfold K.wz; rw [hz]; simp [Option.filter, hzd]
        exact (hi.zkey z hwz).2.2.2
      · rename_i hzd
        obtain rfl := Except.ok.inj h
        refine key _ rfl rfl rfl rfl (by rw [hi.cip]; rfl) ?_ rfl rfl rfl
        intro hrj
        have hwz : k.wz = none := by unfold K.wz; rw [hz]; simp [Option.filter, hzd]
        rcases hi.early hwn hrj with h | h
        · rw [h]; simp
        · exact absurd hwz h
    · rename_i hz
      obtain rfl := Except.ok.inj h
      have hwz : k.wz = none := by unfold K.wz; rw [hz]; rfl
      refine key _ rfl rfl rfl rfl (by rw [hi.cip]; rfl) ?_ rfl hwz rfl
      intro hrj
      rcases hi.early hwn hrj with h | h
      · rw [h]; simp
      · exact absurd hwz h

theorem WInv.discardZero {c : Cipher} {k k' : K} {sent : List (Nat × Nat)} {zs rj : Bool}
    (hi : WInv c k sent zs rj) (h : k.discardZero = .ok k') : WInv c k' sent zs true := by
  unfold K.discardZero at h
  split at h
  · cases h
  · obtain rfl := Except.ok.inj h
    refine ⟨hi.cip, hi.epochs, hi.wnone, ?_, ?_, ?_, ?_, hi.limits, hi.order, ?_⟩
    · intro w hw
      obtain ⟨a, b, c, _⟩ := hi.wkey w hw
      exact ⟨a, b, c, fun h => by cases h⟩
    · intro z h; cases h
    · intro _ h; cases h
    · intro h; exact ⟨rfl, (hi.unset h).2⟩
    · intro h; cases h

theorem K.maybeUpdateWrite_ok {k k' : K} {b : Bool} (h : k.maybeUpdateWrite = .ok (k', b)) :
    k.updTime = none ∧ ∃ w r, k.write = some w ∧ k.read = some r ∧
      ((b = true ∧ w.epoch = r.epoch ∧ k' = { k with write := some (w.next k.cipher) }) ∨
       (b = false ∧ w.epoch ≠ r.epoch ∧ k' = k)) := by
  unfold K.maybeUpdateWrite at h
  split at h
  · cases h
  · rename_i hu
    refine ⟨by cases hk : k.updTime <;> simp_all, ?_⟩
    split at h
    · rename_i w r hw hr
      refine ⟨w, r, hw, hr, ?_⟩
      split at h
      · rename_i he
        have := Except.ok.inj h
        exact .inl ⟨(congrArg Prod.snd this).symm, he, (congrArg Prod.fst this).symm⟩
      · rename_i he
        have := Except.ok.inj h
        exact .inr ⟨(congrArg Prod.snd this).symm, he, (congrArg Prod.fst this).symm⟩
    · cases h

theorem K.autoUpdate_ok {k k' : K} (h : k.autoUpdate = .ok k') :
    k' = k ∨ ∃ w r, k.updTime = none ∧ k.write = some w ∧ k.read = some r ∧ w.epoch = r.epoch ∧
      k' = { k with write := some (w.next k.cipher) } := by
  unfold K.autoUpdate at h
  split at h
  · exact .inl (Except.ok.inj h).symm
  · split at h
    · split at h
      · cases h
      · rename_i k₁ hm
        obtain ⟨h1, w, r, h2, h3, ⟨_, h4, h5⟩ | ⟨h4, _⟩⟩ := K.maybeUpdateWrite_ok hm
        · exact .inr ⟨w, r, h1, h2, h3, h4, (Except.ok.inj h).symm.trans h5⟩
        · cases h4
      · cases h
    · exact .inl (Except.ok.inj h).symm

theorem K.initiate_ok {k k' : K} {la : Option Nat} (h : k.initiate la = .ok k') :
    ∃ w r, k.updTime = none ∧ k.write = some w ∧ k.read = some r ∧ w.epoch = r.epoch ∧
      w.canUpdate la = true ∧ k' = { k with write := some (w.next k.cipher) } := by
  unfold K.initiate at h
  split at h
  · cases h
  · rename_i w hw
    split at h
    · rename_i hc
      split at h
      · cases h
      · rename_i k₁ hm
        obtain ⟨h1, w', r, h2, h3, ⟨_, h4, h5⟩ | ⟨h4, _⟩⟩ := K.maybeUpdateWrite_ok hm
        · rw [hw] at h2
          obtain rfl := Option.some.inj h2
          exact ⟨w, r, h1, hw, h3, h4, hc.1, (Except.ok.inj h).symm.trans h5⟩
        · cases h4
      · cases h
    · cases h

/-- What sending does. -/
theorem K.send_ok {k k' : K} {b e pn : Nat} (h : k.send b = .ok (k', e, pn)) :
    (∃ w w', k.write = some w ∧ w.encrypt b = .ok w' ∧ e = w.epoch ∧ pn = w.stop ∧
      K.autoUpdate { k with write := some w' } = .ok k') ∨
    (∃ z z', k.write = none ∧ k.wz = some z ∧ z.encrypt b = .ok z' ∧ e = z.epoch ∧ pn = z.stop ∧
      k' = { k with zero := some z' }) := by
  unfold K.send at h
  split at h
  · rename_i w hw
    split at h
    · cases h
    · rename_i w' hw'
      split at h
      · cases h
      · rename_i k₁ ha
        have := Except.ok.inj h
        refine .inl ⟨w, w', hw, hw', ?_, ?_, ?_⟩
        · exact (congrArg (fun x => x.2.1) this).symm
        · exact (congrArg (fun x => x.2.2) this).symm
        · rw [ha]; exact congrArg (fun x => Except.ok x.1) this
  · rename_i hw
    split at h
    · cases h
    · rename_i z hz
      split at h
      · cases h
      · rename_i z' hz'
        have := Except.ok.inj h
        exact .inr ⟨z, z', hw, hz, hz', (congrArg (fun x => x.2.1) this).symm,
          (congrArg (fun x => x.2.2) this).symm, (congrArg (fun x => x.1) this).symm⟩

theorem WInv.send {c : Cipher} {k k' : K} {sent : List (Nat × Nat)} {zs rj : Bool} {b e pn : Nat}
    (hi : WInv c k sent zs rj) (h : k.send b = .ok (k', e, pn)) :
    WInv c k' ((e, pn) :: sent) zs rj := by
  rcases K.send_ok h with ⟨w, w', hw, he, rfl, rfl, ha⟩ | ⟨z, z', hw, hz, he, rfl, rfl, rfl⟩
  · obtain ⟨wk, w3, wb, wr⟩ := hi.wkey w hw
    obtain ⟨e1, e2, e3, e4, e5, e6, e7⟩ := Dx.encrypt_ok he
    have hmid : WInv c { k with write := some w' } ((w.epoch, w.stop) :: sent) zs rj := by
      refine ⟨hi.cip, ?_, (by intro h; cases h), ?_, ?_, (by intro h; cases h), ?_, ?_, ?_, ?_⟩
      · intro x hx
        rcases List.mem_cons.mp hx with rfl | hx
        · exact .inr w3
        · exact hi.epochs x hx
      · intro w₁ h1
        obtain rfl := Option.some.inj h1
        refine ⟨wk.encrypt he, by omega, ?_, ?_⟩
        · intro x hx h3
          rcases List.mem_cons.mp hx with rfl | hx
          · exact ⟨by show w.epoch ≤ w'.epoch; omega, by show w.stop < w'.stop; omega⟩
          · have := wb x hx h3; omega
        · intro hr x hx
          rcases List.mem_cons.mp hx with rfl | hx
          · show w.stop < w'.stop; omega
          · have := wr hr x hx; omega
      · intro z hz
        obtain ⟨_, _, hn, _⟩ := hi.zkey z hz
        rw [hw] at hn; cases hn
      · intro h
        refine ⟨(hi.unset h).1, ?_⟩
        intro x hx
        rcases List.mem_cons.mp hx with rfl | hx
        · show w.epoch ≠ 1; omega
        · exact (hi.unset h).2 x hx
      · intro e
        rw [uses_cons]
        by_cases hee : w.epoch = e
        · have := wk.cnt
          rw [if_pos hee, ← hee]; omega
        · rw [if_neg hee]; have := hi.limits e; omega
      · refine List.pairwise_cons.mpr ⟨?_, hi.order⟩
        intro x hx
        rcases hi.epochs x hx with h1 | h3
        · exact ⟨by show x.1 ≤ w.epoch; omega, by intro h; have : x.1 = w.epoch ∨ 3 ≤ x.1 := h; omega⟩
        · have := wb x hx h3
          exact ⟨this.1, fun _ => this.2⟩
      · intro hr
        exact List.pairwise_cons.mpr ⟨fun x hx => wr hr x hx, hi.strict hr⟩
    rcases K.autoUpdate_ok ha with rfl | ⟨w₁, r, _, h2, _, _, rfl⟩
    · exact hmid
    · obtain rfl := Option.some.inj h2
      exact hmid.update rfl (by show some (w'.next k.cipher) = _; rw [hi.cip]) rfl rfl
  · obtain ⟨zk, z1, hn, zb⟩ := hi.zkey z hz
    obtain ⟨e1, e2, e3, e4, e5, e6, e7⟩ := Dx.encrypt_ok he
    have hwz : K.wz { k with zero := some z' } = some z' := by
      unfold K.wz
      simp [Option.filter, e1, zk.dir]
    refine ⟨hi.cip, ?_, ?_, ?_, ?_, ?_, ?_, ?_, ?_, ?_⟩
    · intro x hx
      rcases List.mem_cons.mp hx with rfl | hx
      · exact .inl z1
      · exact hi.epochs x hx
    · intro _ x hx
      rcases List.mem_cons.mp hx with rfl | hx
      · exact z1
      · exact hi.wnone hw x hx
    · intro w h; rw [show K.write { k with zero := some z' } = k.write from rfl, hw] at h; cases h
    · intro z₁ h1
      rw [hwz] at h1
      obtain rfl := Option.some.inj h1
      refine ⟨zk.encrypt he, by omega, hw, ?_⟩
      intro x hx
      rcases List.mem_cons.mp hx with rfl | hx
      · show z.stop < z'.stop; omega
      · have := zb x hx; omega
    · intro _ _; rw [hwz]; exact .inr (fun h => by cases h)
    · intro h; rw [(hi.unset h).1] at hz; cases hz
    · intro e
      rw [uses_cons]
      by_cases hee : z.epoch = e
      · have := zk.cnt
        rw [if_pos hee, ← hee]; omega
      · rw [if_neg hee]; have := hi.limits e; omega
    · refine List.pairwise_cons.mpr ⟨?_, hi.order⟩
      intro x hx
      have := hi.wnone hw x hx
      exact ⟨by show x.1 ≤ z.epoch; omega, fun _ => zb x hx⟩
    · intro hr
      exact List.pairwise_cons.mpr ⟨fun x hx => zb x hx, hi.strict hr⟩

end Neqo.Keys
