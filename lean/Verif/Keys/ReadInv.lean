import Verif.Keys.WriteInv

/-!
The invariant behind the statements about opening packets and key updates.
-/

namespace Neqo.Keys

/-- A key update by the peer is being waited out: the old read keys are still kept. -/
def K.busy (k : K) : Bool := k.updTime.isSome && !k.hasZeroRead

/-- The read keys `r` and the ones to follow `n`, the epoch `we` of the write keys, whether an
update is being waited out, the last update responded to, and the record. -/
structure Rd (r n : Dx) (we : Nat) (busy : Bool) (ue : Option Nat) (acc : List (Nat × Nat))
    (op : List Nat) : Prop where
  below : busy = false → n.stop ≤ r.stop
  nep : n.epoch = r.epoch + 1
  rep : 3 ≤ r.epoch
  wep : we = r.epoch ∨ we = r.epoch + 1
  idle : busy = false → n.start = n.stop ∧ n.minPn = n.stop ∧
    ((r.epoch = 3 ∧ ue = none) ∨ ue = some r.epoch) ∧ (∀ x ∈ acc, x.1 ≤ r.epoch) ∧
    (∀ e ∈ op, e ≤ r.epoch)
  busy : busy = true → n.start < n.stop ∧ n.minPn = r.stop ∧ ue = some n.epoch ∧ we = n.epoch ∧
    n.epoch ∈ op ∧ (∀ x ∈ acc, x.1 = n.epoch → n.start ≤ x.2 ∧ x.2 < n.stop)
  acc3 : ∀ x ∈ acc, x.1 = 1 ∨ (3 ≤ x.1 ∧ x.1 ≤ n.epoch)
  op3 : ∀ e ∈ op, e ≤ n.epoch
  prev : ∀ x ∈ acc, x.1 + 1 = r.epoch → x.2 < r.minPn
  cur : ∀ x ∈ acc, x.1 = r.epoch → x.2 < r.stop
  ord : ∀ x ∈ acc, ∀ y ∈ acc, 3 ≤ x.1 → x.1 + 1 = y.1 → x.2 < y.2
  ops : ∀ e, 3 < e → e ≤ r.epoch → e ∈ op

/-! ### Pieces of the model -/

theorem Dx.continuation_facts (n r : Dx) :
    (n.continuation r).1.dir = n.dir ∧ (n.continuation r).1.epoch = n.epoch ∧
    (n.continuation r).1.inv = n.inv ∧ (n.continuation r).1.minPn = r.stop ∧
    ((n.stop ≤ n.start ∧ (n.continuation r).1.start = r.stop ∧ (n.continuation r).1.stop = r.stop ∧
        (n.continuation r).2 = true) ∨
     (n.start < n.stop ∧ n.start < r.stop ∧ (n.continuation r).1.start = n.start ∧
        (n.continuation r).1.stop = n.stop ∧ (n.continuation r).2 = false) ∨
     (n.start < n.stop ∧ r.stop ≤ n.start ∧ (n.continuation r).1.start = r.stop ∧
        (n.continuation r).1.stop = n.stop ∧ (n.continuation r).2 = true)) := by
  unfold Dx.continuation
  simp only
  by_cases h1 : n.stop ≤ n.start
  · rw [if_pos h1]; exact ⟨rfl, rfl, rfl, rfl, .inl ⟨h1, rfl, rfl, rfl⟩⟩
  · rw [if_neg h1]
    by_cases h2 : r.stop > n.start
    · rw [if_pos h2]; exact ⟨rfl, rfl, rfl, rfl, .inr (.inl ⟨by omega, h2, rfl, rfl, rfl⟩)⟩
    · rw [if_neg h2]
      exact ⟨rfl, rfl, rfl, rfl, .inr (.inr ⟨by omega, by omega, rfl, rfl, rfl⟩)⟩

theorem K.rx_some {k : K} {ph : Bool} {s : K.Slot} {d : Dx} (h : k.rx ph = some (s, d)) :
    (s = .cur ∧ k.read = some d) ∨ (s = .nxt ∧ k.readNext = some d) := by
  unfold K.rx at h
  split at h
  · rename_i d' hd hn
    have := Option.some.inj h
    refine .inl ⟨(congrArg Prod.fst this).symm, ?_⟩
    rw [← show d' = d from congrArg Prod.snd this]
    exact (Option.filter_eq_some_iff.mp hd).1
  · rename_i d' hn hd
    have := Option.some.inj h
    refine .inr ⟨(congrArg Prod.fst this).symm, ?_⟩
    rw [← show d' = d from congrArg Prod.snd this]
    exact (Option.filter_eq_some_iff.mp hd).1
  · cases h

theorem K.openWith_none {d d' : Dx} {p : Wire} {pn : Nat} (h : K.openWith d p pn = (d', none)) :
    p.epoch = d.epoch ∧ pn = p.pn ∧ d.minPn ≤ pn ∧ d'.dir = d.dir ∧ d'.epoch = d.epoch ∧
    d'.minPn = d.minPn ∧ d'.inv ≤ d.inv ∧ d'.stop = max (pn + 1) d.stop ∧
    d'.start = (if d.start = d.stop then pn else d.start) := by
  unfold K.openWith at h
  split at h
  · cases h
  · rename_i d₁ hi
    obtain ⟨rfl, hpos⟩ := Dx.invoked_some hi
    split at h
    · rename_i hc
      split at h
      · cases h
      · rename_i d₂ hu
        obtain rfl := congrArg Prod.fst h
        obtain ⟨u0, u1, u2, u3, u4, u5, u6⟩ := Dx.used_some hu
        simp only at *
        exact ⟨hc.1.symm, hc.2, u0, u1, u2, u3, by omega, u5, u6⟩
    · cases h

theorem K.openWith_some {d d' : Dx} {p : Wire} {pn : Nat} {e : KErr}
    (h : K.openWith d p pn = (d', some e)) (hf : Hist.fatal e = false) :
    d' = { d with inv := d.inv - 1 } ∧ 0 < d.inv := by
  unfold K.openWith at h
  split at h
  · have := Option.some.inj (congrArg Prod.snd h)
    rw [← this] at hf; cases hf
  · rename_i d₁ hi
    obtain ⟨rfl, hpos⟩ := Dx.invoked_some hi
    split at h
    · split at h
      · exact ⟨(congrArg Prod.fst h).symm, hpos⟩
      · cases h
    · exact ⟨(congrArg Prod.fst h).symm, hpos⟩

/-! ### Transitions of the read side -/

namespace Rd

variable {r n r' n' : Dx} {we : Nat} {b : Bool} {ue : Option Nat} {acc : List (Nat × Nat)}
  {op : List Nat}

/-- Counting attempts changes nothing. -/
theorem inv (h : Rd r n we b ue acc op) (x y : Nat) :
    Rd { r with inv := x } { n with inv := y } we b ue acc op :=
  ⟨h.below, h.nep, h.rep, h.wep, h.idle, h.busy, h.acc3, h.op3, h.prev, h.cur, h.ord, h.ops⟩

theorem inv_cur (h : Rd r n we b ue acc op) (x : Nat) :
    Rd { r with inv := x } n we b ue acc op := h.inv x n.inv

theorem inv_nxt (h : Rd r n we b ue acc op) (x : Nat) :
    Rd r { n with inv := x } we b ue acc op := h.inv r.inv x

/-- A 0-RTT packet is opened. -/
theorem zeroOp (h : Rd r n we b ue acc op) : Rd r n we b ue acc (1 :: op) := by
  have := h.rep
  have := h.nep
  refine ⟨h.below, h.nep, h.rep, h.wep, ?_, ?_, h.acc3, ?_, h.prev, h.cur, h.ord, ?_⟩
  · intro hb
    obtain ⟨h1, h2, h3, h4, h5⟩ := h.idle hb
    refine ⟨h1, h2, h3, h4, ?_⟩
    intro e he
    rcases List.mem_cons.mp he with rfl | he
    · omega
    · exact h5 e he
  · intro hb
    obtain ⟨h1, h2, h3, h4, h5, h6⟩ := h.busy hb
    exact ⟨h1, h2, h3, h4, List.mem_cons_of_mem _ h5, h6⟩
  · intro e he
    rcases List.mem_cons.mp he with rfl | he
    · omega
    · exact h.op3 e he
  · intro e h1 h2; exact List.mem_cons_of_mem _ (h.ops e h1 h2)

/-- A 0-RTT packet is accepted. -/
theorem zeroAcc (h : Rd r n we b ue acc op) (pn : Nat) : Rd r n we b ue ((1, pn) :: acc) op := by
  have h3 := h.rep
  have hn := h.nep
  refine ⟨h.below, h.nep, h.rep, h.wep, ?_, ?_, ?_, h.op3, ?_, ?_, ?_, h.ops⟩
  · intro hb
    obtain ⟨h1, h2, h3, h4, h5⟩ := h.idle hb
    refine ⟨h1, h2, h3, ?_, h5⟩
    intro x hx
    rcases List.mem_cons.mp hx with rfl | hx
    · show 1 ≤ r.epoch; omega
    · exact h4 x hx
  · intro hb
    obtain ⟨h1, h2, h3, h4, h5, h6⟩ := h.busy hb
    refine ⟨h1, h2, h3, h4, h5, ?_⟩
    intro x hx hxe
    rcases List.mem_cons.mp hx with rfl | hx
    · have : 1 = n.epoch := hxe; omega
    · exact h6 x hx hxe
  · intro x hx
    rcases List.mem_cons.mp hx with rfl | hx
    · exact .inl rfl
    · exact h.acc3 x hx
  · intro x hx hxe
    rcases List.mem_cons.mp hx with rfl | hx
    · have : 1 + 1 = r.epoch := hxe; omega
    · exact h.prev x hx hxe
  · intro x hx hxe
    rcases List.mem_cons.mp hx with rfl | hx
    · have : 1 = r.epoch := hxe; omega
    · exact h.cur x hx hxe
  · intro x hx y hy h1 h2
    rcases List.mem_cons.mp hx with rfl | hx
    · have : 3 ≤ 1 := h1; omega
    · rcases List.mem_cons.mp hy with rfl | hy
      · have : x.1 + 1 = 1 := h2; omega
      · exact h.ord x hx y hy h1 h2

/-- While 0-RTT keys are waited out, the next keys keep up with the current ones. -/
theorem idleOverlap (h : Rd r n we false ue acc op) :
    Rd r (n.continuation r).1 we false ue acc op ∧ (n.continuation r).2 = true := by
  obtain ⟨h1, h2, h3, h4, h5⟩ := h.idle rfl
  obtain ⟨c1, c2, c3, c4, ⟨c5, c6, c7, c8⟩ | ⟨c5, _⟩ | ⟨c5, _⟩⟩ := Dx.continuation_facts n r
  · have hn := h.nep
    exact ⟨⟨fun _ => by omega, by omega, h.rep, h.wep, fun _ => ⟨by omega, by omega, h3, h4, h5⟩,
      (fun hb => by cases hb), by rw [c2]; exact h.acc3, by rw [c2]; exact h.op3, h.prev, h.cur,
      h.ord, h.ops⟩, c8⟩
  · omega
  · omega

/-- A check while an update is waited out does no harm. -/
theorem busyOverlap (h : Rd r n we true ue acc op) :
    Rd r (n.continuation r).1 we true ue acc op := by
  obtain ⟨h1, h2, h3, h4, h5, h6⟩ := h.busy rfl
  have hn := h.nep
  obtain ⟨c1, c2, c3, c4, ⟨c5, c6, c7, c8⟩ | ⟨c5, c6, c7, c8, c9⟩ | ⟨c5, c6, c7, c8, c9⟩⟩ :=
    Dx.continuation_facts n r
  · omega
  · exact ⟨(fun hb => by cases hb), by omega, h.rep, h.wep, (fun hb => by cases hb),
      fun _ => ⟨by omega, c4, by rw [c2]; exact h3, by omega, by rw [c2]; exact h5,
        by rw [c2, c7, c8]; exact h6⟩, by rw [c2]; exact h.acc3, by rw [c2]; exact h.op3, h.prev,
      h.cur, h.ord, h.ops⟩
  · refine ⟨(fun hb => by cases hb), by omega, h.rep, h.wep, (fun hb => by cases hb),
      fun _ => ⟨by omega, c4, by rw [c2]; exact h3, by omega, by rw [c2]; exact h5, ?_⟩,
      by rw [c2]; exact h.acc3, by rw [c2]; exact h.op3, h.prev, h.cur, h.ord, h.ops⟩
    intro x hx hxe
    have := h6 x hx (by omega)
    omega

/-- Something is opened with a key that is already in use. -/
theorem opOld (h : Rd r n we b ue acc op) {e : Nat}
    (he : e = r.epoch ∨ (b = true ∧ e = n.epoch)) : Rd r n we b ue acc (e :: op) := by
  have hn := h.nep
  refine ⟨h.below, h.nep, h.rep, h.wep, ?_, ?_, h.acc3, ?_, h.prev, h.cur, h.ord, ?_⟩
  · intro hb
    obtain ⟨h1, h2, h3, h4, h5⟩ := h.idle hb
    refine ⟨h1, h2, h3, h4, ?_⟩
    intro x hx
    rcases List.mem_cons.mp hx with rfl | hx
    · rcases he with he | ⟨he, _⟩
      · omega
      · rw [hb] at he; cases he
    · exact h5 x hx
  · intro hb
    obtain ⟨h1, h2, h3, h4, h5, h6⟩ := h.busy hb
    exact ⟨h1, h2, h3, h4, List.mem_cons_of_mem _ h5, h6⟩
  · intro x hx
    rcases List.mem_cons.mp hx with rfl | hx
    · rcases he with he | ⟨_, he⟩ <;> omega
    · exact h.op3 x hx
  · intro x h1 h2; exact List.mem_cons_of_mem _ (h.ops x h1 h2)

/-- A packet opened with the current keys, no update being waited out. -/
theorem recvCurIdle (h : Rd r n we false ue acc op) {pn : Nat} (hmin : r.minPn ≤ pn)
    (e1 : r'.epoch = r.epoch) (e2 : r'.minPn = r.minPn) (e3 : r'.stop = max (pn + 1) r.stop) :
    Rd r' n we false ue ((r.epoch, pn) :: acc) op := by
  obtain ⟨h1, h2, h3, h4, h5⟩ := h.idle rfl
  have hn := h.nep
  have hr := h.rep
  refine ⟨fun _ => by have := h.below rfl; omega, by omega, by omega, by have := h.wep; omega, fun _ => ⟨h1, h2, by rw [e1]; exact h3, ?_,
    by rw [e1]; exact h5⟩, (fun hb => by cases hb), ?_, h.op3, ?_, ?_, ?_, by rw [e1]; exact h.ops⟩
  · intro x hx
    rcases List.mem_cons.mp hx with rfl | hx
    · show r.epoch ≤ r'.epoch; omega
    · have := h4 x hx; omega
  · intro x hx
    rcases List.mem_cons.mp hx with rfl | hx
    · exact .inr ⟨hr, by show r.epoch ≤ n.epoch; omega⟩
    · exact h.acc3 x hx
  · intro x hx hxe
    rcases List.mem_cons.mp hx with rfl | hx
    · have : r.epoch + 1 = r'.epoch := hxe; omega
    · rw [e2]; exact h.prev x hx (by omega)
  · intro x hx hxe
    rcases List.mem_cons.mp hx with rfl | hx
    · show pn < r'.stop; omega
    · have := h.cur x hx (by omega); omega
  · intro x hx y hy a1 a2
    rcases List.mem_cons.mp hx with rfl | hx
    · rcases List.mem_cons.mp hy with rfl | hy
      · have : r.epoch + 1 = r.epoch := a2; omega
      · have : r.epoch + 1 = y.1 := a2
        have := h4 y hy; omega
    · rcases List.mem_cons.mp hy with rfl | hy
      · have := h.prev x hx a2
        show x.2 < pn; omega
      · exact h.ord x hx y hy a1 a2

/-- A packet opened with the old keys while an update is waited out.  The first part holds
whatever the check says, the second if it succeeds. -/
theorem recvCurBusy (h : Rd r n we true ue acc op) {pn : Nat} (hmin : r.minPn ≤ pn)
    (e1 : r'.epoch = r.epoch) (e2 : r'.minPn = r.minPn) (e3 : r'.stop = max (pn + 1) r.stop) :
    Rd r' (n.continuation r').1 we true ue acc op ∧
    ((n.continuation r').2 = true → Rd r' (n.continuation r').1 we true ue ((r.epoch, pn) :: acc) op) := by
  obtain ⟨h1, h2, h3, h4, h5, h6⟩ := h.busy rfl
  have hn := h.nep
  have hr := h.rep
  have hmid : Rd r' { n with minPn := r'.stop } we true ue acc op := by
    refine ⟨(fun hb => by cases hb), by show n.epoch = _; omega, by omega, by have := h.wep; omega, (fun hb => by cases hb),
      fun _ => ⟨h1, rfl, h3, h4, h5, h6⟩, h.acc3, h.op3, ?_, ?_, h.ord, by rw [e1]; exact h.ops⟩
    · intro x hx hxe; rw [e2]; exact h.prev x hx (by omega)
    · intro x hx hxe; have := h.cur x hx (by omega); omega
  have hcont : { n with minPn := r'.stop }.continuation r' = n.continuation r' := rfl
  have hb := hmid.busyOverlap
  rw [hcont] at hb
  refine ⟨hb, ?_⟩
  intro hok
  obtain ⟨c1, c2, c3, c4, ⟨c5, c6, c7, c8⟩ | ⟨c5, c6, c7, c8, c9⟩ | ⟨c5, c6, c7, c8, c9⟩⟩ :=
    Dx.continuation_facts n r'
  · omega
  · rw [hok] at c9; cases c9
  · refine ⟨(fun hb => by cases hb), by omega, by omega, by have := h.wep; omega, (fun hb => by cases hb),
      fun _ => ⟨by omega, c4, by rw [c2]; exact h3, by omega, by rw [c2]; exact h5, ?_⟩, ?_,
      by rw [c2]; exact h.op3, ?_, ?_, ?_, by rw [e1]; exact h.ops⟩
    · intro x hx hxe
      rcases List.mem_cons.mp hx with rfl | hx
      · have : r.epoch = _ := hxe; omega
      · have := h6 x hx (by omega); omega
    · intro x hx
      rcases List.mem_cons.mp hx with rfl | hx
      · exact .inr ⟨hr, by show r.epoch ≤ _; omega⟩
      · rw [c2]; exact h.acc3 x hx
    · intro x hx hxe
      rcases List.mem_cons.mp hx with rfl | hx
      · have : r.epoch + 1 = r'.epoch := hxe; omega
      · rw [e2]; exact h.prev x hx (by omega)
    · intro x hx hxe
      rcases List.mem_cons.mp hx with rfl | hx
      · show pn < r'.stop; omega
      · have := h.cur x hx (by omega); omega
    · intro x hx y hy a1 a2
      rcases List.mem_cons.mp hx with rfl | hx
      · rcases List.mem_cons.mp hy with rfl | hy
        · have : r.epoch + 1 = r.epoch := a2; omega
        · have a2' : r.epoch + 1 = y.1 := a2
          have := h6 y hy (by omega)
          show pn < y.2; omega
      · rcases List.mem_cons.mp hy with rfl | hy
        · have := h.prev x hx a2
          show x.2 < pn; omega
        · exact h.ord x hx y hy a1 a2

/-- The first packet of an update. -/
theorem recvNxtIdle (h : Rd r n we false ue acc op) {pn : Nat} (hmin : n.minPn ≤ pn)
    (e1 : n'.epoch = n.epoch) (e3 : n'.stop = max (pn + 1) n.stop)
    (e4 : n'.start = if n.start = n.stop then pn else n.start) :
    Rd r (n'.continuation r).1 n.epoch true (some n.epoch) acc (n.epoch :: op) ∧
    ((n'.continuation r).2 = true →
      Rd r (n'.continuation r).1 n.epoch true (some n.epoch) ((n.epoch, pn) :: acc) (n.epoch :: op)) := by
  obtain ⟨h1, h2, h3, h4, h5⟩ := h.idle rfl
  have hn := h.nep
  have hr := h.rep
  rw [if_pos h1] at e4
  have hstop : n'.stop = pn + 1 := by omega
  have base : ∀ (m : Dx), m.epoch = n.epoch → m.start < m.stop → m.minPn = r.stop →
      Rd r m n.epoch true (some n.epoch) acc (n.epoch :: op) := by
    intro m m1 m2 m3
    refine ⟨(fun hb => by cases hb), by omega, hr, by omega, (fun hb => by cases hb),
      fun _ => ⟨m2, m3, by rw [m1], by omega, by rw [m1]; exact List.mem_cons_self, ?_⟩,
      by rw [m1]; exact h.acc3, ?_, h.prev, h.cur, h.ord, ?_⟩
    · intro x hx hxe; have := h4 x hx; omega
    · intro e he
      rcases List.mem_cons.mp he with rfl | he
      · omega
      · have := h.op3 e he; omega
    · intro e a1 a2; exact List.mem_cons_of_mem _ (h.ops e a1 a2)
  obtain ⟨c1, c2, c3, c4, ⟨c5, c6, c7, c8⟩ | ⟨c5, c6, c7, c8, c9⟩ | ⟨c5, c6, c7, c8, c9⟩⟩ :=
    Dx.continuation_facts n' r
  · omega
  · refine ⟨base _ (by omega) (by omega) c4, ?_⟩
    intro hok; rw [hok] at c9; cases c9
  · have hb := base _ (by omega) (by omega) c4
    refine ⟨hb, fun _ => ⟨(fun hb => by cases hb), hb.nep, hr, hb.wep, (fun hb => by cases hb), ?_, ?_, hb.op3, ?_, ?_, ?_, hb.ops⟩⟩
    · intro hb'
      obtain ⟨b1, b2, b3, b4, b5, b6⟩ := hb.busy hb'
      refine ⟨b1, b2, b3, b4, b5, ?_⟩
      intro x hx hxe
      rcases List.mem_cons.mp hx with rfl | hx
      · exact ⟨by show _ ≤ pn; omega, by show pn < _; omega⟩
      · exact b6 x hx hxe
    · intro x hx
      rcases List.mem_cons.mp hx with rfl | hx
      · exact .inr ⟨by show 3 ≤ n.epoch; omega, by show n.epoch ≤ _; omega⟩
      · exact hb.acc3 x hx
    · intro x hx hxe
      rcases List.mem_cons.mp hx with rfl | hx
      · have : n.epoch + 1 = r.epoch := hxe; omega
      · exact h.prev x hx hxe
    · intro x hx hxe
      rcases List.mem_cons.mp hx with rfl | hx
      · have : n.epoch = r.epoch := hxe; omega
      · exact h.cur x hx hxe
    · intro x hx y hy a1 a2
      rcases List.mem_cons.mp hx with rfl | hx
      · rcases List.mem_cons.mp hy with rfl | hy
        · have : n.epoch + 1 = n.epoch := a2; omega
        · have : n.epoch + 1 = y.1 := a2
          have := h4 y hy; omega
      · rcases List.mem_cons.mp hy with rfl | hy
        · have a2' : x.1 + 1 = n.epoch := a2
          have := h.cur x hx (by omega)
          show x.2 < pn; omega
        · exact h.ord x hx y hy a1 a2

/-- A further packet of an update. -/
theorem recvNxtBusy (h : Rd r n we true ue acc op) {pn : Nat} (hmin : n.minPn ≤ pn)
    (e1 : n'.epoch = n.epoch) (e2 : n'.minPn = n.minPn) (e3 : n'.stop = max (pn + 1) n.stop)
    (e4 : n'.start = if n.start = n.stop then pn else n.start) :
    Rd r (n'.continuation r).1 we true ue acc op ∧
    ((n'.continuation r).2 = true →
      Rd r (n'.continuation r).1 we true ue ((n.epoch, pn) :: acc) op) := by
  obtain ⟨h1, h2, h3, h4, h5, h6⟩ := h.busy rfl
  have hn := h.nep
  have hr := h.rep
  rw [if_neg (by omega)] at e4
  have hmid : Rd r n' we true ue acc op := by
    refine ⟨(fun hb => by cases hb), by omega, hr, h.wep, (fun hb => by cases hb),
      fun _ => ⟨by omega, by omega, by rw [e1]; exact h3, by omega, by rw [e1]; exact h5, ?_⟩,
      by rw [e1]; exact h.acc3, by rw [e1]; exact h.op3, h.prev, h.cur, h.ord, h.ops⟩
    intro x hx hxe
    have := h6 x hx (by omega)
    omega
  have hb := hmid.busyOverlap
  refine ⟨hb, ?_⟩
  intro hok
  obtain ⟨c1, c2, c3, c4, ⟨c5, c6, c7, c8⟩ | ⟨c5, c6, c7, c8, c9⟩ | ⟨c5, c6, c7, c8, c9⟩⟩ :=
    Dx.continuation_facts n' r
  · omega
  · rw [hok] at c9; cases c9
  · refine ⟨(fun hb => by cases hb), hb.nep, hr, hb.wep, (fun hb => by cases hb), ?_, ?_, hb.op3, ?_, ?_, ?_, hb.ops⟩
    · intro hb'
      obtain ⟨b1, b2, b3, b4, b5, b6⟩ := hb.busy hb'
      refine ⟨b1, b2, b3, b4, b5, ?_⟩
      intro x hx hxe
      rcases List.mem_cons.mp hx with rfl | hx
      · exact ⟨by show _ ≤ pn; omega, by show pn < _; omega⟩
      · exact b6 x hx hxe
    · intro x hx
      rcases List.mem_cons.mp hx with rfl | hx
      · exact .inr ⟨by show 3 ≤ n.epoch; omega, by show n.epoch ≤ _; omega⟩
      · exact hb.acc3 x hx
    · intro x hx hxe
      rcases List.mem_cons.mp hx with rfl | hx
      · have : n.epoch + 1 = r.epoch := hxe; omega
      · exact h.prev x hx hxe
    · intro x hx hxe
      rcases List.mem_cons.mp hx with rfl | hx
      · have : n.epoch = r.epoch := hxe; omega
      · exact h.cur x hx hxe
    · intro x hx y hy a1 a2
      rcases List.mem_cons.mp hx with rfl | hx
      · rcases List.mem_cons.mp hy with rfl | hy
        · have : n.epoch + 1 = n.epoch := a2; omega
        · have a2' : n.epoch + 1 = y.1 := a2
          rcases h.acc3 y hy with h | h <;> omega
      · rcases List.mem_cons.mp hy with rfl | hy
        · have a2' : x.1 + 1 = n.epoch := a2
          have := h.cur x hx (by omega)
          show x.2 < pn; omega
        · exact h.ord x hx y hy a1 a2

/-- The write keys are updated on our own account. -/
theorem wUpdate (h : Rd r n we b ue acc op) (hw : we = r.epoch) (hb : b = false) :
    Rd r n (we + 1) b ue acc op :=
  ⟨h.below, h.nep, h.rep, by omega, h.idle, (fun hb' => by rw [hb] at hb'; cases hb'), h.acc3, h.op3, h.prev,
    h.cur, h.ord, h.ops⟩

/-- The old read keys are dropped. -/
theorem rotate (h : Rd r n we true ue acc op) (c : Cipher) :
    Rd n (n.next c) we false ue acc op := by
  obtain ⟨h1, h2, h3, h4, h5, h6⟩ := h.busy rfl
  have hn := h.nep
  have hr := h.rep
  refine ⟨fun _ => Nat.le_refl _, rfl, by omega, .inl h4, fun _ => ⟨rfl, rfl, .inr h3, ?_, h.op3⟩, (fun hb => by cases hb),
    ?_, ?_, ?_, ?_, h.ord, ?_⟩
  · intro x hx
    rcases h.acc3 x hx with h | h <;> omega
  · intro x hx
    rcases h.acc3 x hx with h | h
    · exact .inl h
    · exact .inr ⟨h.1, by show x.1 ≤ n.epoch + 1; omega⟩
  · intro e he
    have := h.op3 e he
    show e ≤ n.epoch + 1; omega
  · intro x hx hxe
    have := h.cur x hx (by omega)
    omega
  · intro x hx hxe; exact (h6 x hx hxe).2
  · intro e a1 a2
    by_cases he : e = n.epoch
    · rw [he]; exact h5
    · exact h.ops e a1 (by omega)

end Rd

end Neqo.Keys
