import Verif.SlowStart.Search

/-!
# C100: SEARCH leaves slow start when less is delivered than was sent
-/
namespace Neqo.Ss

/-- Round-trip times are at least 3 ns. -/
def SEv.Legal : SEv → Prop
  | .ack rtt _ => 3 ≤ rtt
  | _ => True

instance (e : SEv) : Decidable e.Legal := by cases e <;> (unfold SEv.Legal; infer_instance)

theorem Sim.steps : ∀ {es : List SEv} {s : Search} {v : View}, Sim s v → (∀ e ∈ es, e.Legal) → ∃ s', s.steps es = .ok (s', (v.steps es).2) ∧ Sim s' (v.steps es).1 := by
  intro es
  induction es with
  | nil => intro s v h _; exact ⟨s, rfl, h⟩
  | cons e es ih =>
    intro s v h hl
    obtain ⟨s1, h1, h2⟩ := h.step (e := e) (fun rtt now he => by have := hl e List.mem_cons_self; rw [he] at this; exact this)
    obtain ⟨s2, h3, h4⟩ := ih h2 (fun e he => hl e (List.mem_cons_of_mem _ he))
    refine ⟨s2, ?_, h4⟩
    unfold Search.steps View.steps
    rw [h1]
    dsimp only
    rw [h3]

theorem Sim.new : Sim {} {} := ⟨rfl, rfl, fun _ => rfl, (fun r h => by cases h)⟩

/-- C100: SEARCH, with its two circular arrays, answers every sequence of calls as if it kept all that it has measured: no
entry is overwritten while it is needed and none is read that was not written since the last restart.  It does not
panic. -/
theorem C100_as_specified {es : List SEv} (hl : ∀ e ∈ es, e.Legal) : ∃ s, ({} : Search).steps es = .ok (s, (View.steps {} es).2) := by
  obtain ⟨s, h, _⟩ := Sim.new.steps hl
  exact ⟨s, h⟩

/-- What is known of the specification's state. -/
structure ViewOK (v : View) : Prop where
  run : ∀ r, v.run = some r → RunOK r ∧ (∀ m ∈ r.marks, m.sent ≤ v.sent ∧ m.acked ≤ v.acked) ∧ r.marks.Pairwise (fun a b => b.sent ≤ a.sent ∧ b.acked ≤ a.acked)

theorem ViewOK.step {v : View} (h : ViewOK v) {e : SEv} (he : e.Legal) : ViewOK (v.step e).1 := by
  cases e with
  | sent n =>
    refine ⟨fun r hr => ?_⟩
    obtain ⟨a, b, c⟩ := h.run r hr
    exact ⟨a, fun m hm => ⟨Nat.le_trans (b m hm).1 (Nat.le_add_right _ _), (b m hm).2⟩, c⟩
  | delivered n =>
    refine ⟨fun r hr => ?_⟩
    obtain ⟨a, b, c⟩ := h.run r hr
    exact ⟨a, fun m hm => ⟨(b m hm).1, Nat.le_trans (b m hm).2 (Nat.le_add_right _ _)⟩, c⟩
  | reset => exact ⟨(fun r hr => by cases hr)⟩
  | ack rtt now =>
    unfold View.step
    dsimp only
    split
    · refine ⟨fun r hr => ?_⟩
      injection hr with hr
      subst hr
      have he : 3 ≤ rtt := he
      refine ⟨⟨by show 0 < rtt * 35 / 100; omega, List.cons_ne_nil _ _, List.pairwise_singleton _ _, ⟨_, List.mem_singleton.mpr rfl, rfl⟩⟩, fun m hm => ?_, List.pairwise_singleton _ _⟩
      rw [List.mem_singleton.mp hm]
      exact ⟨Nat.le_refl _, Nat.le_refl _⟩
    · rename_i r hr
      split
      · exact h
      · split
        · exact ⟨(fun r hr => by cases hr)⟩
        · rename_i c1 c2
          obtain ⟨ok, b, c⟩ := h.run r hr
          refine ⟨fun r' hr' => ?_⟩
          injection hr' with hr'
          subst hr'
          have hj : r.last < (now - r.t0) / r.dur := (Nat.le_div_iff_mul_le ok.pos).mpr (by show (r.last + 1) * r.dur ≤ _; omega)
          refine ⟨⟨ok.pos, List.cons_ne_nil _ _, List.pairwise_cons.mpr ⟨fun m hm => ?_, ok.sorted⟩, ?_⟩, fun m hm => ?_, List.pairwise_cons.mpr ⟨fun m hm => b m hm, c⟩⟩
          · show m.bin < (now - r.t0) / r.dur
            cases hms : r.marks with
            | nil => exact absurd hms ok.ne
            | cons a l =>
              have hla : r.last = a.bin := by unfold Run.last; rw [hms]; rfl
              rw [hms] at hm
              rcases List.mem_cons.mp hm with rfl | hm
              · omega
              · have hs := ok.sorted
                rw [hms] at hs
                have := (List.pairwise_cons.mp hs).1 m hm
                omega
          · obtain ⟨m, hm, e⟩ := ok.zero
            exact ⟨m, List.mem_cons_of_mem _ hm, e⟩
          · rcases List.mem_cons.mp hm with rfl | hm
            · exact ⟨Nat.le_refl _, Nat.le_refl _⟩
            · exact b m hm

theorem ViewOK.steps : ∀ {es : List SEv} {v : View}, ViewOK v → (∀ e ∈ es, e.Legal) → ViewOK (v.steps es).1 := by
  intro es
  induction es with
  | nil => intro v h _; exact h
  | cons e es ih => intro v h hl; exact ih (h.step (hl e List.mem_cons_self)) (fun e he => hl e (List.mem_cons_of_mem _ he))

theorem ViewOK.new : ViewOK {} := ⟨(fun r h => by cases h)⟩

theorem find_mono : ∀ {ms : List Mark} {i j : Nat}, ms.Pairwise (fun a b => b.sent ≤ a.sent ∧ b.acked ≤ a.acked) → i ≤ j →
    (((ms.find? fun m => decide (m.bin ≤ i)).map (·.sent)).getD 0) ≤ (((ms.find? fun m => decide (m.bin ≤ j)).map (·.sent)).getD 0) := by
  intro ms
  induction ms with
  | nil => intros; exact Nat.le_refl _
  | cons m ms ih =>
    intro i j hp hij
    obtain ⟨h1, h2⟩ := List.pairwise_cons.mp hp
    by_cases hi : m.bin ≤ i
    · rw [List.find?_cons_of_pos (by simpa using hi), List.find?_cons_of_pos (by simp; omega)]
      exact Nat.le_refl _
    · rw [List.find?_cons_of_neg (by simpa using hi)]
      by_cases hj : m.bin ≤ j
      · rw [List.find?_cons_of_pos (by simpa using hj)]
        cases hf : ms.find? fun m => decide (m.bin ≤ i) with
        | none => exact Nat.zero_le _
        | some x => exact (h1 x (List.mem_of_find?_eq_some hf)).1
      · rw [List.find?_cons_of_neg (by simpa using hj)]
        exact ih h2 hij

/-- What is compared with is at most what was sent in eleven bins. -/
theorem sentBefore_le {r : Run} {rtt j : Nat} (hd : 0 < r.dur) (hp : r.marks.Pairwise (fun a b => b.sent ≤ a.sent ∧ b.acked ≤ a.acked)) :
    r.sentBefore rtt j ≤ r.sentAt (j - rtt / r.dur) - r.sentAt (j - rtt / r.dur - 11) := by
  unfold Run.sentBefore
  dsimp only
  generalize rtt / r.dur = b
  have hf : rtt % r.dur * 100 / r.dur < 100 := by
    rw [Nat.div_lt_iff_lt_mul hd, Nat.mul_comm]
    exact Nat.mul_lt_mul_of_pos_left (Nat.mod_lt _ hd) (by omega)
  generalize rtt % r.dur * 100 / r.dur = f at hf
  have m1 : r.sentAt (j - b - 1) ≤ r.sentAt (j - b) := find_mono hp (by omega)
  have m2 : r.sentAt (j - b - 11) ≤ r.sentAt (j - b - 10) := find_mono hp (by omega)
  generalize hX : r.sentAt (j - b) - r.sentAt (j - b - 11) = X
  have a1 : r.sentAt (j - b - 1) - r.sentAt (j - b - 11) ≤ X := by omega
  have a2 : r.sentAt (j - b) - r.sentAt (j - b - 10) ≤ X := by omega
  have b1 := Nat.mul_le_mul_right f a1
  have b2 := Nat.mul_le_mul_right (100 - f) a2
  have b3 : X * f + X * (100 - f) = X * 100 := by rw [← Nat.mul_add]; congr 1; omega
  omega

theorem ViewOK.leaves {v : View} (ok : ViewOK v) {e : SEv} (h : (v.step e).2 = true) :
    ∃ rtt now r r', e = .ack rtt now ∧ v.run = some r ∧ (v.step e).1.run = some r' ∧ r.t0 + 11 * r.dur ≤ now ∧ rtt < 15 * r.dur ∧
      0 < r'.sentBefore rtt r'.last ∧ 100 * r'.delivered r'.last ≤ 74 * r'.sentBefore rtt r'.last := by
  cases e with
  | sent n => cases h
  | delivered n => cases h
  | reset => cases h
  | ack rtt now =>
    have h' := h
    unfold View.step at h
    dsimp only at h
    split at h
    · cases h
    · rename_i r hr
      obtain ⟨rok, _, _⟩ := ok.run r hr
      split at h
      · cases h
      · split at h
        · cases h
        · rename_i c1 c2
          obtain ⟨l1, l2, l3, l4⟩ := of_decide_eq_true h
          refine ⟨rtt, now, r, _, rfl, hr, ?_, ?_, ?_, l3, l4⟩
          · unfold View.step
            dsimp only
            rw [hr]
            dsimp only
            rw [if_neg c1, if_neg c2]
          · dsimp only at l1
            have h11 : 11 ≤ (now - r.t0) / r.dur := by
              generalize rtt / r.dur = q at l1
              omega
            have := (Nat.le_div_iff_mul_le rok.pos).mp h11
            have := rok.pos
            omega
          · dsimp only at l2
            have := (Nat.div_lt_iff_lt_mul rok.pos).mp l2
            omega

/-- C100: SEARCH leaves slow start only on an acknowledgement that is at least eleven bins after its start, if the
round-trip time is less than fifteen bins, and if at most 74% of what was sent over ten bins, a round-trip time before,
was delivered over the last ten bins. -/
theorem C100_leaves_only_if_flat {es : List SEv} {e : SEv} (hl : ∀ x ∈ es, x.Legal) (h : ((View.steps {} es).1.step e).2 = true) :
    ∃ rtt now r r', e = .ack rtt now ∧ (View.steps {} es).1.run = some r ∧ ((View.steps {} es).1.step e).1.run = some r' ∧ r.t0 + 11 * r.dur ≤ now ∧ rtt < 15 * r.dur ∧
      0 < r'.sentBefore rtt r'.last ∧ 100 * r'.delivered r'.last ≤ 74 * r'.sentBefore rtt r'.last :=
  (ViewOK.new.steps hl).leaves h

/-- C100: and it does leave then. -/
theorem C100_leaves_if_flat {v : View} {rtt now : Nat} {r r' : Run} (h1 : v.run = some r) (h2 : (v.step (.ack rtt now)).1.run = some r') (hnew : r'.last ≠ r.last)
    (h3 : 10 + rtt / r'.dur < r'.last) (h4 : rtt / r'.dur < 15) (h5 : 0 < r'.sentBefore rtt r'.last) (h6 : 100 * r'.delivered r'.last ≤ 74 * r'.sentBefore rtt r'.last) :
    (v.step (.ack rtt now)).2 = true := by
  unfold View.step at h2 ⊢
  dsimp only at h2 ⊢
  rw [h1] at h2 ⊢
  dsimp only at h2 ⊢
  by_cases c1 : now ≤ r.t0 + (r.last + 1) * r.dur
  · rw [if_pos c1] at h2
    rw [h1] at h2
    injection h2 with h2
    exact absurd (by rw [h2]) hnew
  · rw [if_neg c1] at h2 ⊢
    by_cases c2 : r.last + 10 < (now - r.t0) / r.dur
    · rw [if_pos c2] at h2
      cases h2
    · rw [if_neg c2] at h2 ⊢
      injection h2 with h2
      subst h2
      exact decide_eq_true ⟨h3, h4, h5, h6⟩

/-- C100: it does not leave slow start while what was sent is delivered: if over the last ten bins as much was delivered as
was sent over the eleven bins that end a round-trip time before. -/
theorem C100_stays_while_delivered {es : List SEv} {rtt now : Nat} {r' : Run} (hl : ∀ x ∈ es, x.Legal) (hrtt : 3 ≤ rtt)
    (h : ((View.steps {} es).1.step (.ack rtt now)).1.run = some r')
    (hd : r'.sentAt (r'.last - rtt / r'.dur) - r'.sentAt (r'.last - rtt / r'.dur - 11) ≤ r'.delivered r'.last) : ((View.steps {} es).1.step (.ack rtt now)).2 = false := by
  cases hb : ((View.steps {} es).1.step (.ack rtt now)).2 with
  | false => rfl
  | true =>
    exfalso
    obtain ⟨rtt', now', r, r'', e1, _, e2, _, _, h1, h2⟩ := C100_leaves_only_if_flat hl hb
    injection e1 with e1 e3
    subst e1 e3
    rw [h] at e2
    injection e2 with e2
    subst e2
    obtain ⟨ok, _, hp⟩ := ((ViewOK.new.steps hl).step (e := .ack rtt now) hrtt).run r' h
    have := sentBefore_le (rtt := rtt) (j := r'.last) ok.pos hp
    omega

theorem ViewOK.silent {v : View} (ok : ViewOK v) {e : SEv} (he : e.Legal) (h0 : v.sent = 0) : (v.step e).2 = false := by

  cases hb : (v.step e).2 with
  | false => rfl
  | true =>
    exfalso
    obtain ⟨rtt, now, r, r', e1, _, e2, _, _, h1, _⟩ := ok.leaves hb
    subst e1
    obtain ⟨ok', hm, hp⟩ := (ok.step (e := .ack rtt now) he).run r' e2
    have hs : (v.step (.ack rtt now)).1.sent = 0 := by
      unfold View.step
      dsimp only
      split
      · exact h0
      · split
        · exact h0
        · split
          · rfl
          · exact h0
    have hz : ∀ i, r'.sentAt i = 0 := by
      intro i
      unfold Run.sentAt
      cases hf : r'.marks.find? fun m => decide (m.bin ≤ i) with
      | none => rfl
      | some x =>
        have := (hm x (List.mem_of_find?_eq_some hf)).1
        show x.sent = 0
        omega
    have := sentBefore_le (rtt := rtt) (j := r'.last) ok'.pos hp
    rw [hz, hz] at this
    omega

/-- C100: it does not leave slow start if nothing was sent since its start. -/
theorem C100_stays_while_silent {es : List SEv} {e : SEv} (hl : ∀ x ∈ es, x.Legal) (he : e.Legal) (h0 : (View.steps {} es).1.sent = 0) : ((View.steps {} es).1.step e).2 = false :=
  (ViewOK.new.steps hl).silent he h0

/-- C100: the two estimates are what was delivered in the last bins: as many as the first round-trip time takes, and as the
latest one takes, if these are not more than ten. -/
theorem C100_estimates {es : List SEv} {s : Search} {bs : List Bool} {rtt : Nat} {r : Run} (hl : ∀ x ∈ es, x.Legal) (h : ({} : Search).steps es = .ok (s, bs))
    (hr : (View.steps {} es).1.run = some r) : ∃ first, r.dur = first * 35 / 100 ∧
      s.targets r.last rtt = (some (r.ackedAt r.last - r.ackedAt (r.last - (first + r.dur - 1) / r.dur)),
        if (rtt + r.dur - 1) / r.dur ≤ 10 then some (r.ackedAt r.last - r.ackedAt (r.last - (rtt + r.dur - 1) / r.dur)) else none) := by
  obtain ⟨s', h', hs⟩ := Sim.new.steps hl
  rw [h] at h'
  injection h' with h'
  injection h' with h' _
  subst h'
  obtain ⟨ok, _, _, h3, ⟨i, h4, h5⟩, _, h6⟩ := hs.running r hr
  refine ⟨i, h5, ?_⟩
  have hpos := ok.pos
  unfold Search.targets
  rw [h4]
  dsimp only
  unfold Search.rttBins Search.delv
  rw [h3]
  dsimp only [nAcked]
  have hle : (i + r.dur - 1) / r.dur ≤ 10 := by
    refine Nat.le_of_lt_succ ((Nat.div_lt_iff_lt_mul hpos).mpr ?_)
    omega
  generalize (i + r.dur - 1) / r.dur = q at hle ⊢
  rw [h6 r.last (Nat.le_refl _) (by omega), h6 (r.last - q) (by omega) (by omega)]
  congr 1
  split
  · rename_i hc
    generalize (rtt + r.dur - 1) / r.dur = p at hc ⊢
    rw [h6 (r.last - p) (by omega) (by omega)]
  · rfl

/-! ## Examples -/

/-- A round-trip time of 100 µs, that is bins of 35 µs.  More is sent in each bin, but after the fourth one only 1000 bytes are
delivered in each. -/
def flatEvs : List SEv :=
  .ack 100000 0 :: (List.range 16).flatMap fun i => [.sent (1000 * (i + 1)), .delivered (if i < 4 then 1000 * i else 1000), .ack 100000 (35000 * (i + 1) + 1)]

example : ∀ e ∈ flatEvs, e.Legal := by decide +kernel
/-- The first acknowledgement that is late enough, in bin 13, leaves slow start. -/
example : ((View.steps {} flatEvs).2.findIdx? (· = true)) = some 39 := by decide +kernel
example : (match ({} : Search).steps flatEvs with | .ok r => r.2.findIdx? (· = true) | .error _ => none) = some 39 := by decide +kernel
/-- If all is delivered one round-trip time later, slow start goes on. -/
def steadyEvs : List SEv :=
  .ack 100000 0 :: (List.range 40).flatMap fun i => [.sent (1000 * (i + 1)), .delivered (1000 * (i + 1 - 3)), .ack 100000 (35000 * (i + 1) + 1)]
example : (View.steps {} steadyEvs).2.all (· = false) = true := by decide +kernel
/-- A pause of more than ten bins: SEARCH starts again. -/
example : ((View.steps {} (flatEvs.take 34 ++ [.ack 100000 900000])).1.run).isNone = true := by decide +kernel

/-- A round-trip time of less than 3 ns makes the length of a bin zero, and the assertion fails. -/
theorem C100_zero_rtt_panics : ({} : Search).steps [.ack 2 1000] = .error .panic := rfl

end Neqo.Ss
