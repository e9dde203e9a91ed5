import Verif.SlowStart.Model

/-!
# C100: SEARCH leaves slow start when less is delivered than was sent
-/
namespace Neqo.Ss

/-! ## Specification -/

/-- What was sent and acknowledged in all, when a bin was entered. -/
structure Mark where
  bin : Nat
  sent : Nat
  acked : Nat
  deriving DecidableEq, Repr

/-- A run of the algorithm: time is cut into bins of a given length; marks are kept for good, the newest first. -/
structure Run where
  t0 : Nat
  dur : Nat
  marks : List Mark
  deriving DecidableEq, Repr

/-- What was sent by the time a bin was entered (or the last one before it that was). -/
def Run.sentAt (r : Run) (i : Nat) : Nat := ((r.marks.find? fun m => decide (m.bin ≤ i)).map (·.sent)).getD 0
/-- What was acknowledged by that time. -/
def Run.ackedAt (r : Run) (i : Nat) : Nat := ((r.marks.find? fun m => decide (m.bin ≤ i)).map (·.acked)).getD 0

/-- The latest bin. -/
def Run.last (r : Run) : Nat := (r.marks.head?.map (·.bin)).getD 0

/-- What was sent in the ten bins that end one round-trip time before bin `j`; between two bins in proportion, by the
hundredth. -/
def Run.sentBefore (r : Run) (rtt j : Nat) : Nat :=
  let b := rtt / r.dur
  let f := rtt % r.dur * 100 / r.dur
  ((r.sentAt (j - b - 1) - r.sentAt (j - b - 11)) * f + (r.sentAt (j - b) - r.sentAt (j - b - 10)) * (100 - f)) / 100

/-- What was delivered in the ten bins that end with bin `j`. -/
def Run.delivered (r : Run) (j : Nat) : Nat := r.ackedAt j - r.ackedAt (j - 10)

/-- Delivery lags behind: one can look back ten bins and the round-trip time, that is less than fifteen bins, and at most
74% of what was sent a round-trip time ago was delivered now. -/
def Run.Lags (r : Run) (rtt j : Nat) : Prop :=
  10 + rtt / r.dur < j ∧ rtt / r.dur < 15 ∧ 0 < r.sentBefore rtt j ∧ 100 * r.delivered j ≤ 74 * r.sentBefore rtt j

instance (r : Run) (rtt j) : Decidable (r.Lags rtt j) := by unfold Run.Lags; infer_instance

/-- The bytes sent and acknowledged since the last restart, and the run, which begins with the first acknowledgement. -/
structure View where
  sent : Nat := 0
  acked : Nat := 0
  run : Option Run := none

/-- The calls made on SEARCH. -/
inductive SEv where
  | sent (n : Nat)
  | delivered (n : Nat)
  | ack (rtt now : Nat)
  | reset

/-- What should happen on a call, and if slow start should be left. -/
def View.step (v : View) : SEv → View × Bool
  | .sent n => ({ v with sent := v.sent + n }, false)
  | .delivered n => ({ v with acked := v.acked + n }, false)
  | .reset => ({}, false)
  | .ack rtt now =>
    match v.run with
    | none => ({ v with run := some { t0 := now, dur := rtt * 35 / 100, marks := [⟨0, v.sent, v.acked⟩] } }, false)
    | some r =>
      let j := (now - r.t0) / r.dur
      if now ≤ r.t0 + (r.last + 1) * r.dur then (v, false)
      else if r.last + 10 < j then ({}, false)
      else
        let r := { r with marks := ⟨j, v.sent, v.acked⟩ :: r.marks }
        ({ v with run := some r }, decide (r.Lags rtt j))

/-! The length of a bin: a window of ten is three and a half times the first round-trip time; here `rtt * 35 / 100`, a
tenth of that. -/

def View.steps : View → List SEv → View × List Bool
  | v, [] => (v, [])
  | v, e :: es => ((v.step e).1.steps es |>.1, (v.step e).2 :: ((v.step e).1.steps es).2)

/-- The code. -/
def Search.step (s : Search) : SEv → Except Err (Search × Bool)
  | .sent n => .ok (s.onSent n, false)
  | .delivered n => .ok (s.recordAcked n, false)
  | .ack rtt now => s.onAcked rtt now
  | .reset => .ok (s.reset, false)

def Search.steps : Search → List SEv → Except Err (Search × List Bool)
  | s, [] => .ok (s, [])
  | s, e :: es =>
    match s.step e with
    | .error x => .error x
    | .ok r =>
      match r.1.steps es with
      | .error x => .error x
      | .ok q => .ok (q.1, r.2 :: q.2)

/-! ## Lemmas -/

theorem mod_ne {n a b : Nat} (h1 : a < b) (h2 : b < a + n) : a % n ≠ b % n := by
  intro h
  have hd := Nat.sub_mod_eq_zero_of_mod_eq h.symm
  have := Nat.le_of_dvd (by omega) (Nat.dvd_of_mod_eq_zero hd)
  omega

theorem fill_old {n : Nat} {r : Ring} {cur : Nat} : ∀ {k i : Nat}, i ≤ cur → cur + k < i + n → Search.fill n r cur k (i % n) = r (i % n) := by
  intro k
  induction k with
  | zero => intros; rfl
  | succ k ih =>
    intro i h1 h2
    unfold Search.fill Ring.set
    rw [if_neg (mod_ne (by omega) (by omega))]
    exact ih h1 (by omega)

theorem fill_new {n : Nat} {r : Ring} {cur : Nat} : ∀ {k i : Nat}, k < n → cur < i → i ≤ cur + k → Search.fill n r cur k (i % n) = r (cur % n) := by
  intro k
  induction k with
  | zero => intros; omega
  | succ k ih =>
    intro i hk h1 h2
    unfold Search.fill Ring.set
    by_cases he : i = cur + k + 1
    · rw [he, if_pos rfl]
      exact fill_old (Nat.le_refl _) (by omega)
    · rw [if_neg (mod_ne (by omega) (by omega))]
      exact ih (by omega) h1 (by omega)

/-- What is known of the marks. -/
structure RunOK (r : Run) : Prop where
  pos : 0 < r.dur
  ne : r.marks ≠ []
  sorted : r.marks.Pairwise fun a b => b.bin < a.bin
  zero : ∃ m ∈ r.marks, m.bin = 0

/-- The code's state is the specification's, with what the circular arrays can hold. -/
structure Sim (s : Search) (v : View) : Prop where
  sent : s.sent = v.sent
  acked : s.acked = v.acked
  idle : v.run = none → s.idx = none
  running : ∀ r, v.run = some r → RunOK r ∧ s.idx = some r.last ∧ s.binEnd = some (r.t0 + (r.last + 1) * r.dur) ∧ s.dur = r.dur ∧
    (∃ i, s.initialRtt = some i ∧ r.dur = i * 35 / 100) ∧
    (∀ i, i ≤ r.last → r.last < i + 26 → s.sentBins (i % 26) = r.sentAt i) ∧ (∀ i, i ≤ r.last → r.last < i + 11 → s.ackedBins (i % 11) = r.ackedAt i)

theorem dur_eq (rtt : Nat) : rtt * 350 / 100 / 10 = rtt * 35 / 100 := by omega

theorem sentAt_cons_lt {r : Run} {m : Mark} {i : Nat} (h : i < m.bin) : ({ r with marks := m :: r.marks } : Run).sentAt i = r.sentAt i := by
  unfold Run.sentAt
  rw [List.find?_cons_of_neg (by simpa using h)]

theorem sentAt_cons_ge {r : Run} {m : Mark} {i : Nat} (h : m.bin ≤ i) : ({ r with marks := m :: r.marks } : Run).sentAt i = m.sent := by
  unfold Run.sentAt
  rw [List.find?_cons_of_pos (by simpa using h)]
  rfl

theorem ackedAt_cons_lt {r : Run} {m : Mark} {i : Nat} (h : i < m.bin) : ({ r with marks := m :: r.marks } : Run).ackedAt i = r.ackedAt i := by
  unfold Run.ackedAt
  rw [List.find?_cons_of_neg (by simpa using h)]

theorem ackedAt_cons_ge {r : Run} {m : Mark} {i : Nat} (h : m.bin ≤ i) : ({ r with marks := m :: r.marks } : Run).ackedAt i = m.acked := by
  unfold Run.ackedAt
  rw [List.find?_cons_of_pos (by simpa using h)]
  rfl

/-- Beyond the latest bin nothing changes. -/
theorem at_last {r : Run} (h : RunOK r) {i : Nat} (hi : r.last ≤ i) : r.sentAt i = r.sentAt r.last ∧ r.ackedAt i = r.ackedAt r.last := by
  obtain ⟨t0, dur, marks⟩ := r
  cases marks with
  | nil => exact absurd rfl h.ne
  | cons m ms =>
    have e : Run.last ⟨t0, dur, m :: ms⟩ = m.bin := rfl
    rw [e] at hi ⊢
    have hs := @sentAt_cons_ge ⟨t0, dur, ms⟩ m
    have ha := @ackedAt_cons_ge ⟨t0, dur, ms⟩ m
    exact ⟨(hs hi).trans (hs (Nat.le_refl _)).symm, (ha hi).trans (ha (Nat.le_refl _)).symm⟩

theorem ring_push {n : Nat} {ring : Ring} {old new f : Nat} {g g' : Nat → Nat} (hn : 0 < n) (h0 : old < new) (h1 : new ≤ old + 10) (h2 : 10 < n)
    (hr : ∀ i, i ≤ old → old < i + n → ring (i % n) = g i) (hg : ∀ i, old ≤ i → i < new → g' i = g old) (hl : ∀ i, i < old → g' i = g i) (hf : g' new = f) :
    ∀ i, i ≤ new → new < i + n → ((Search.fill n ring old (new - old - 1)).set (new % n) f) (i % n) = g' i := by
  intro i hi1 hi2
  unfold Ring.set
  by_cases he : i = new
  · rw [he, if_pos rfl, hf]
  · rw [if_neg (mod_ne (by omega) (by omega))]
    by_cases ho : i ≤ old
    · rw [fill_old ho (by omega), hr i ho (by omega)]
      by_cases hq : i = old
      · rw [hg i (by omega) (by omega), hq]
      · exact (hl i (by omega)).symm
    · rw [fill_new (by omega) (by omega) (by omega), hr old (Nat.le_refl _) (by omega)]
      exact (hg i (by omega) (by omega)).symm

/-- The decision is the one specified. -/
theorem evaluate_eq {s : Search} {r : Run} {rtt : Nat} (hd : s.dur = r.dur) (hp : 0 < r.dur)
    (h1 : ∀ i, i ≤ r.last → r.last < i + 26 → s.sentBins (i % 26) = r.sentAt i) (h2 : ∀ i, i ≤ r.last → r.last < i + 11 → s.ackedBins (i % 11) = r.ackedAt i) :
    s.evaluate rtt r.last = .ok (decide (r.Lags rtt r.last)) := by
  unfold Search.evaluate
  rw [hd]
  dsimp only
  unfold Run.Lags
  obtain ⟨b, hb⟩ : ∃ b, rtt / r.dur = b := ⟨_, rfl⟩
  simp only [hb]
  have hf : rtt % r.dur * 100 / r.dur < 100 := by
    rw [Nat.div_lt_iff_lt_mul hp, Nat.mul_comm]
    exact Nat.mul_lt_mul_of_pos_left (Nat.mod_lt _ hp) (by omega)
  by_cases c1 : r.last - b ≤ 10
  · rw [if_pos c1]
    congr 1
    exact (decide_eq_false (by omega)).symm
  · rw [if_neg c1]
    by_cases c2 : 15 ≤ r.last - (r.last - b)
    · rw [if_pos c2]
      congr 1
      exact (decide_eq_false (by omega)).symm
    · rw [if_neg c2]
      have hP : s.sentIn (r.last - b - 10) (r.last - b) (rtt % r.dur * 100 / r.dur) = .ok (r.sentBefore rtt r.last) := by
        unfold Search.sentIn Run.sentBefore
        rw [if_neg (by omega)]
        dsimp only [nSent]
        rw [h1 (r.last - b - 1) (by omega) (by omega), h1 (r.last - b - 10 - 1) (by omega) (by omega), h1 (r.last - b) (by omega) (by omega),
          h1 (r.last - b - 10) (by omega) (by omega), hb]
        rfl
      rw [hP]
      dsimp only
      have hD : s.delv (r.last - 10) r.last = r.delivered r.last := by
        unfold Search.delv Run.delivered
        dsimp only [nAcked]
        rw [h2 r.last (by omega) (by omega), h2 (r.last - 10) (by omega) (by omega)]
      rw [hD]
      generalize r.sentBefore rtt r.last = P
      generalize r.delivered r.last = D
      split
      · congr 1
        exact (decide_eq_false (by omega)).symm
      · rename_i hP0
        congr 1
        rw [decide_eq_decide, Nat.le_div_iff_mul_le (by omega)]
        omega

theorem last_cons (r : Run) (m : Mark) : ({ r with marks := m :: r.marks } : Run).last = m.bin := rfl

/-- Each call does what is specified. -/
theorem Sim.step {s : Search} {v : View} (h : Sim s v) {e : SEv} (he : ∀ rtt now, e = .ack rtt now → 3 ≤ rtt) :
    ∃ s', s.step e = .ok (s', (v.step e).2) ∧ Sim s' (v.step e).1 := by
  cases e with
  | sent n =>
    refine ⟨s.onSent n, rfl, ?_⟩
    exact ⟨by show s.sent + n = v.sent + n; rw [h.sent], h.acked, h.idle, h.running⟩
  | delivered n =>
    refine ⟨s.recordAcked n, rfl, ?_⟩
    exact ⟨h.sent, by show s.acked + n = v.acked + n; rw [h.acked], h.idle, h.running⟩
  | reset =>
    exact ⟨s.reset, rfl, rfl, rfl, fun _ => rfl, (fun r hr => by cases hr)⟩
  | ack rtt now =>
    have hrtt := he rtt now rfl
    unfold Search.step Search.onAcked View.step
    dsimp only
    cases hv : v.run with
    | none =>
      rw [h.idle hv]
      dsimp only
      unfold Search.start
      dsimp only
      rw [if_neg (show ¬(rtt * 350 / 100 / 10 = 0) by omega)]
      refine ⟨{ s with initialRtt := some rtt, dur := rtt * 350 / 100 / 10, binEnd := some (now + rtt * 350 / 100 / 10), ackedBins := s.ackedBins.set 0 s.acked, sentBins := s.sentBins.set 0 s.sent, idx := some 0 }, ?_, ?_⟩
      · show (if (decide (now ≤ now + rtt * 350 / 100 / 10)) = true then _ else _) = _
        rw [if_pos (by simp)]
      · refine ⟨h.sent, h.acked, (fun hn => by cases hn), fun r hr => ?_⟩
        injection hr with hr
        subst hr
        refine ⟨⟨by show 0 < rtt * 35 / 100; omega, List.cons_ne_nil _ _, List.pairwise_singleton _ _, ⟨_, List.mem_singleton.mpr rfl, rfl⟩⟩, rfl, ?_, dur_eq rtt, ⟨rtt, rfl, rfl⟩, ?_, ?_⟩
        · show some (now + rtt * 350 / 100 / 10) = some (now + (0 + 1) * (rtt * 35 / 100))
          rw [dur_eq]
          congr 1
          omega
        · intro i hi _
          have hi : i ≤ 0 := hi
          have : i = 0 := by omega
          rw [this]
          exact h.sent
        · intro i hi _
          have hi : i ≤ 0 := hi
          have : i = 0 := by omega
          rw [this]
          exact h.acked
    | some r =>
      obtain ⟨ok, h1, h2, h3, h4, h5, h6⟩ := h.running r hv
      rw [h1]
      dsimp only
      show ∃ s', (if s.binEnd.any (fun e => decide (now ≤ e)) = true then _ else _) = _ ∧ _
      rw [h2]
      simp only [Option.any_some, decide_eq_true_eq]
      by_cases c1 : now ≤ r.t0 + (r.last + 1) * r.dur
      · rw [if_pos c1, if_pos c1]
        exact ⟨s, rfl, h⟩
      · rw [if_neg c1, if_neg c1]
        have hpos := ok.pos
        have hp : (now - (r.t0 + (r.last + 1) * r.dur)) / r.dur + 1 = (now - r.t0) / r.dur - r.last := by
          have : now - r.t0 = (now - (r.t0 + (r.last + 1) * r.dur)) + r.dur * (r.last + 1) := by
            rw [Nat.mul_comm r.dur]; omega
          rw [this, Nat.add_mul_div_left _ _ hpos]
          generalize (now - (r.t0 + (r.last + 1) * r.dur)) / r.dur = q
          omega
        obtain ⟨j, hjj⟩ : ∃ j, (now - r.t0) / r.dur = j := ⟨_, rfl⟩
        have hj : r.last < j := by
          rw [← hjj]
          exact (Nat.le_div_iff_mul_le hpos).mpr (by show (r.last + 1) * r.dur ≤ _; omega)
        rw [hjj] at hp
        simp only [hjj]
        have hu : s.updateBins now = if 10 < j - r.last then .ok (s.reset, none) else
            .ok ({ s with ackedBins := (Search.fill nAcked s.ackedBins r.last (j - r.last - 1)).set ((r.last + (j - r.last)) % nAcked) s.acked
                          sentBins := (Search.fill nSent s.sentBins r.last (j - r.last - 1)).set ((r.last + (j - r.last)) % nSent) s.sent
                          idx := some (r.last + (j - r.last)), binEnd := some (r.t0 + (r.last + 1) * r.dur + s.dur * (j - r.last)) }, some (r.last + (j - r.last))) := by
          unfold Search.updateBins
          rw [h1, h2]
          dsimp only
          rw [if_neg (by omega), h3, hp]
        by_cases c2 : r.last + 10 < j
        · rw [if_pos c2]
          rw [if_pos (show 10 < j - r.last by omega)] at hu
          refine ⟨s.reset, ?_, ⟨rfl, rfl, fun _ => rfl, (fun r hr => by cases hr)⟩⟩
          rw [hu]
          rfl
        · rw [if_neg c2]
          rw [if_neg (show ¬10 < j - r.last by omega)] at hu
          have ej : r.last + (j - r.last) = j := by omega
          rw [ej] at hu
          rw [hu]
          have hsim : Sim { s with ackedBins := (Search.fill nAcked s.ackedBins r.last (j - r.last - 1)).set (j % nAcked) s.acked
                                   sentBins := (Search.fill nSent s.sentBins r.last (j - r.last - 1)).set (j % nSent) s.sent
                                   idx := some j, binEnd := some (r.t0 + (r.last + 1) * r.dur + s.dur * (j - r.last)) }
              { v with run := some { r with marks := ⟨j, v.sent, v.acked⟩ :: r.marks } } := by
            refine ⟨h.sent, h.acked, (fun hn => by cases hn), fun r' hr' => ?_⟩
            injection hr' with hr'
            subst hr'
            refine ⟨⟨hpos, List.cons_ne_nil _ _, ?_, ?_⟩, rfl, ?_, h3, h4, ?_, ?_⟩
            · refine List.pairwise_cons.mpr ⟨fun m hm => ?_, ok.sorted⟩
              show m.bin < j
              cases hms : r.marks with
              | nil => exact absurd hms ok.ne
              | cons a l =>
                have hl : r.last = a.bin := by unfold Run.last; rw [hms]; rfl
                rw [hms] at hm
                rcases List.mem_cons.mp hm with rfl | hm
                · omega
                · have hs := ok.sorted
                  rw [hms] at hs
                  have := (List.pairwise_cons.mp hs).1 m hm
                  omega
            · obtain ⟨m, hm, e⟩ := ok.zero
              exact ⟨m, List.mem_cons_of_mem _ hm, e⟩
            · show some (r.t0 + (r.last + 1) * r.dur + s.dur * (j - r.last)) = some (r.t0 + (j + 1) * r.dur)
              rw [h3]
              congr 1
              have : j + 1 = (r.last + 1) + (j - r.last) := by omega
              rw [this, Nat.add_mul (r.last + 1), Nat.mul_comm r.dur, Nat.add_assoc]
            · have hgo := @ring_push 26 s.sentBins r.last j s.sent (fun i => r.sentAt i) (fun i => ({ r with marks := ⟨j, v.sent, v.acked⟩ :: r.marks } : Run).sentAt i) (by omega) hj (by omega) (by omega) h5
              refine hgo ?_ ?_ ?_
              · intro i g1 g2
                rw [@sentAt_cons_lt r ⟨j, v.sent, v.acked⟩ i g2]
                exact (at_last ok g1).1
              · intro i g1
                exact @sentAt_cons_lt r ⟨j, v.sent, v.acked⟩ i (by show i < j; omega)
              · rw [@sentAt_cons_ge r ⟨j, v.sent, v.acked⟩ j (Nat.le_refl _)]
                exact h.sent.symm
            · have hgo := @ring_push 11 s.ackedBins r.last j s.acked (fun i => r.ackedAt i) (fun i => ({ r with marks := ⟨j, v.sent, v.acked⟩ :: r.marks } : Run).ackedAt i) (by omega) hj (by omega) (by omega) h6
              refine hgo ?_ ?_ ?_
              · intro i g1 g2
                rw [@ackedAt_cons_lt r ⟨j, v.sent, v.acked⟩ i g2]
                exact (at_last ok g1).2
              · intro i g1
                exact @ackedAt_cons_lt r ⟨j, v.sent, v.acked⟩ i (by show i < j; omega)
              · rw [@ackedAt_cons_ge r ⟨j, v.sent, v.acked⟩ j (Nat.le_refl _)]
                exact h.acked.symm
          refine ⟨_, ?_, hsim⟩
          obtain ⟨_, _, _, g3, _, g5, g6⟩ := hsim.running _ rfl
          have hev := @evaluate_eq _ { r with marks := ⟨j, v.sent, v.acked⟩ :: r.marks } rtt g3 hpos g5 g6
          rw [last_cons] at hev
          dsimp only at hev
          show (do
            let b ← Search.evaluate _ rtt j
            Except.ok (_, b)) = _
          rw [hev]
          rfl

end Neqo.Ss
