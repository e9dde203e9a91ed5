import Verif.Recovery.Rtt
import Verif.Tparams.Create

/-!
# The delay of acknowledgements: what is reported, what is read, and what it does to the estimates

Times are in nanoseconds.
-/
namespace Neqo.Rec

/-! ## The model -/

/-- The delay that `RecvdPackets::write_frame` (tracking.rs:467-470) puts into an ACK frame. -/
def writtenDelay (elapsed : Nat) : Nat :=
  min 4611686018427387903 (min (elapsed / 1000 / 8) 18446744073709551615)

/-- `u64::leading_zeros`. -/
def leadingZeros (v : Nat) : Nat := if v = 0 then 64 else 63 - Nat.log2 v

/-- `decode_ack_delay` (connection/mod.rs:3613-3630): `none` are parameters that were not received yet;
the error of `get_integer` is a panic. -/
def readDelay (remote : Option Tp.Params) (v : Nat) : Except Tp.Err Nat :=
  match remote with
  | none => .ok 0
  | some r =>
    match Tp.getInteger r .ackDelayExponent with
    | .error e => .error e
    | .ok e => .ok ((if leadingZeros v ≥ e then v <<< e else 18446744073709551615) * 1000)

/-- An acknowledgement that gives a sample. -/
structure Sample where
  time : Nat
  delay : Nat
  src : Src
  now : Nat

/-- The samples of a path one after the other, `RttEstimate::update` (rtt.rs:98-151). -/
def Rtt.run : Rtt → List Sample → Except Err Rtt
  | r, [] => .ok r
  | r, x :: xs =>
    match r.update x.time x.delay x.src x.now with
    | .ok r => r.run xs
    | .error e => .error e

/-! ## Lemmas -/

theorem lz_iff {v e : Nat} (hv : v < 2 ^ 64) (he : e ≤ 20) : leadingZeros v ≥ e ↔ v * 2 ^ e < 2 ^ 64 := by
  unfold leadingZeros
  by_cases h0 : v = 0
  · subst h0
    rw [if_pos rfl]
    constructor
    · intro _; rw [Nat.zero_mul]; decide
    · intro _; omega
  · rw [if_neg h0]
    have h1 : Nat.log2 v < 64 := (Nat.log2_lt h0).mpr hv
    have h2 : Nat.log2 v < 64 - e ↔ v < 2 ^ (64 - e) := Nat.log2_lt h0
    have h3 : (2 : Nat) ^ 64 = 2 ^ (64 - e) * 2 ^ e := by
      rw [← Nat.pow_add]
      congr 1
      omega
    rw [h3, Nat.mul_lt_mul_right (Nat.pow_pos (by decide)), ← h2]
    omega

theorem adjust_bounds (r : Rtt) (sample delay : Nat) :
    min r.min sample ≤ r.adjust sample delay ∧ r.adjust sample delay ≤ sample := by
  have hm : Nat.min r.min sample ≤ sample := Nat.min_le_right r.min sample
  show Nat.min r.min sample ≤ _ ∧ _
  unfold Rtt.adjust
  dsimp only
  generalize Nat.min r.min sample = m at *
  (repeat' split) <;> omega

/-! ## The theorems -/

/-- Whatever an endpoint has set for its connection, its peer reads the delay of an acknowledgement
rounded down to 8 microseconds, if it is below a thousand years. -/
theorem C116_reported {ss : List Tp.Setting} {c : Tp.Config} {server : Bool} {current : Nat} {other : List Nat}
    {scid cid srt : Codec.Bytes} {p : Tp.Params} (_ : Tp.Config.dflt.settings ss = .ok c)
    (hp : Tp.create c server current other scid (some (cid, srt)) = .ok (some p)) {elapsed : Nat}
    (he : elapsed < 31536000000000000000) :
    ∃ d, readDelay (some p) (writtenDelay elapsed) = .ok d ∧ d ≤ elapsed ∧ elapsed < d + 8000 := by
  rw [Tp.create_eq] at hp
  cases hp
  have hw : writtenDelay elapsed = elapsed / 1000 / 8 := by
    unfold writtenDelay
    have h1 : elapsed / 1000 / 8 ≤ 18446744073709551615 := by omega
    have h2 : elapsed / 1000 / 8 ≤ 4611686018427387903 := by omega
    rw [Nat.min_eq_left h1, Nat.min_eq_right h2]
  have hg : Tp.getInteger (Tp.made c server current other scid cid srt) .ackDelayExponent = .ok 3 := rfl
  have hl : leadingZeros (elapsed / 1000 / 8) ≥ 3 := by
    rw [lz_iff (by omega) (by decide)]
    omega
  refine ⟨(elapsed / 1000 / 8) * 8 * 1000, ?_, by omega, by omega⟩
  unfold readDelay
  simp only [hg]
  rw [hw, if_pos hl, Nat.shiftLeft_eq]

/-- Whatever a peer sends: reading its delay does not fail, and gives what the delay and the exponent say,
or the largest number of microseconds if this is larger. -/
theorem C116_read {role : Tp.Role} {b : Codec.Bytes} {p : Tp.Params} (h : Tp.decodeParams role b = .ok p) {v : Nat}
    (hv : v < 2 ^ 62) :
    ∃ e, e ≤ 20 ∧ Tp.IntegerIs p .ackDelayExponent e ∧
      readDelay (some p) v = .ok (min (v * 2 ^ e) (2 ^ 64 - 1) * 1000) := by
  obtain ⟨e, he⟩ : ∃ e, Tp.getInteger p .ackDelayExponent = .ok e ∧ e ≤ 20 ∧ Tp.IntegerIs p .ackDelayExponent e := by
    unfold Tp.getInteger
    rw [show Tp.integerDefault .ackDelayExponent = some 3 from rfl]
    cases hx : p .ackDelayExponent with
    | none => exact ⟨3, rfl, by decide, .inr ⟨hx, .inr (.inr (.inl ⟨rfl, rfl⟩))⟩⟩
    | some x =>
      have hval := Tp.C36_valid h hx
      cases x with
      | int n => exact ⟨n, rfl, hval.1, .inl hx⟩
      | bytes _ => exact absurd hval.1 (by simp [Tp.Valid])
      | empty => exact absurd hval.1 (by simp [Tp.Valid])
      | preferred _ _ _ _ => exact absurd hval.1 (by simp [Tp.Valid])
      | versions _ _ => exact absurd hval.1 (by simp [Tp.Valid])
  refine ⟨e, he.2.1, he.2.2, ?_⟩
  unfold readDelay
  simp only [he.1]
  have h64 : (2 : Nat) ^ 64 = 18446744073709551616 := by decide
  have hlz := lz_iff (v := v) (e := e) (by omega) he.2.1
  by_cases hl : leadingZeros v ≥ e
  · rw [if_pos hl, Nat.shiftLeft_eq, Nat.min_eq_left (by have := hlz.mp hl; omega)]
  · rw [if_neg hl, Nat.min_eq_right (show 2 ^ 64 - 1 ≤ v * 2 ^ e from by
      have : ¬ v * 2 ^ e < 2 ^ 64 := fun h => hl (hlz.mpr h)
      omega), h64]

/-- During the handshake no delay is taken away. -/
theorem C116_handshake {v : Nat} : readDelay none v = .ok 0 := rfl

/-- Whatever delays a peer reports: what it takes away from a sample leaves the sample above the smallest
one so far, and once the handshake is confirmed it is no more than the maximum that it announced. -/
theorem C116_bounded {r r' : Rtt} {sample delay now : Nat} {src : Src} (h : r.update sample delay src now = .ok r') :
    min r.min sample ≤ r'.latest ∧ r'.latest ≤ sample ∧ (src = .confirmed → sample ≤ r'.latest + r.maxAckDelay) := by
  have hb := adjust_bounds { r with best := src } sample delay
  have hc : src = .confirmed → sample ≤ Rtt.adjust { r with best := src } sample delay + r.maxAckDelay := by
    intro hs
    subst hs
    unfold Rtt.adjust
    dsimp only
    generalize Nat.min r.min sample = m
    (repeat' split) <;> simp_all <;> omega
  unfold Rtt.update at h
  split at h
  · cases h
  · dsimp only at h
    split at h <;> (cases h; exact ⟨hb.1, hb.2, hc⟩)

theorem update_range {r r' : Rtt} {lo hi sample delay now : Nat} {src : Src} (h : r.update sample delay src now = .ok r')
    (hr : lo ≤ r.min ∧ (r.first ≠ none → lo ≤ r.smoothed ∧ r.smoothed ≤ hi)) (h1 : lo ≤ sample) (h2 : sample ≤ hi) :
    (lo ≤ r'.min ∧ r'.min ≤ sample) ∧ (lo ≤ r'.latest ∧ r'.latest ≤ hi) ∧ (lo ≤ r'.smoothed ∧ r'.smoothed ≤ hi) ∧
      r'.first ≠ none := by
  have hb := adjust_bounds { r with best := src } sample delay
  have hm : lo ≤ min r.min sample := by
    rcases Nat.le_total r.min sample with hle | hle
    · rw [Nat.min_eq_left hle]; exact hr.1
    · rw [Nat.min_eq_right hle]; exact h1
  have hlo : lo ≤ Rtt.adjust { r with best := src } sample delay := Nat.le_trans hm hb.1
  have hhi : Rtt.adjust { r with best := src } sample delay ≤ hi := Nat.le_trans hb.2 h2
  unfold Rtt.update at h
  split at h
  · cases h
  · dsimp only at h
    split at h
    · cases h
      exact ⟨⟨hlo, hb.2⟩, ⟨hlo, hhi⟩, ⟨hlo, hhi⟩, fun h => by cases h⟩
    · rename_i hf
      cases h
      obtain ⟨s1, s2⟩ := hr.2 (by rw [hf]; exact fun h => by cases h)
      refine ⟨⟨hm, Nat.min_le_right ..⟩, ⟨hlo, hhi⟩, ⟨?_, ?_⟩, ?_⟩
      · dsimp only; omega
      · dsimp only; omega
      · dsimp only; rw [hf]; exact fun h => by cases h

/-- Whatever delays a peer reports in whatever history: the smoothed, the latest and the smallest
round-trip time stay between the smallest and the largest sample, or the initial value if that is
smaller than the smallest sample. -/
theorem C116_estimates_partial {initial lo hi : Nat} {xs : List Sample} {r : Rtt} (hx : xs ≠ [])
    (h : (Rtt.new initial).run xs = .ok r) (h0 : lo ≤ initial) (h1 : ∀ x ∈ xs, lo ≤ x.time ∧ x.time ≤ hi) :
    (lo ≤ r.min ∧ r.min ≤ hi) ∧ (lo ≤ r.latest ∧ r.latest ≤ hi) ∧ (lo ≤ r.smoothed ∧ r.smoothed ≤ hi) := by
  suffices H : ∀ (xs : List Sample) (q r : Rtt), xs ≠ [] → q.run xs = .ok r →
      lo ≤ q.min ∧ (q.first ≠ none → lo ≤ q.smoothed ∧ q.smoothed ≤ hi) → (∀ x ∈ xs, lo ≤ x.time ∧ x.time ≤ hi) →
      (lo ≤ r.min ∧ r.min ≤ hi) ∧ (lo ≤ r.latest ∧ r.latest ≤ hi) ∧ (lo ≤ r.smoothed ∧ r.smoothed ≤ hi) from
    H xs _ r hx h ⟨h0, fun hf => absurd rfl hf⟩ h1
  intro xs
  induction xs with
  | nil => intro q r hx; exact absurd rfl hx
  | cons x xs ih =>
    intro q r _ h hq h1
    unfold Rtt.run at h
    cases hu : q.update x.time x.delay x.src x.now with
    | error e => simp [hu] at h
    | ok q' =>
      simp only [hu] at h
      have hxx := h1 x (List.mem_cons_self ..)
      obtain ⟨a, b, c, d⟩ := update_range hu hq hxx.1 hxx.2
      cases xs with
      | nil => cases h; exact ⟨⟨a.1, Nat.le_trans a.2 hxx.2⟩, b, c⟩
      | cons y ys => exact ih q' r (fun h => by cases h) h ⟨a.1, fun _ => c⟩ (fun z hz => h1 z (List.mem_cons_of_mem _ hz))

theorem update_var {r r' : Rtt} {lo hi sample delay now : Nat} {src : Src} (h : r.update sample delay src now = .ok r')
    (hr : lo ≤ r.min ∧ (r.first ≠ none → (lo ≤ r.smoothed ∧ r.smoothed ≤ hi) ∧ r.var ≤ max (hi / 2) (hi - lo)))
    (h1 : lo ≤ sample) (h2 : sample ≤ hi) : r'.var ≤ max (hi / 2) (hi - lo) := by
  have hb := adjust_bounds { r with best := src } sample delay
  have hm : lo ≤ min r.min sample := Nat.le_min.mpr ⟨hr.1, h1⟩
  have hlo : lo ≤ Rtt.adjust { r with best := src } sample delay := Nat.le_trans hm hb.1
  have hhi : Rtt.adjust { r with best := src } sample delay ≤ hi := Nat.le_trans hb.2 h2
  unfold Rtt.update at h
  split at h
  · cases h
  · dsimp only at h
    split at h
    · cases h
      dsimp only
      omega
    · rename_i hf
      cases h
      obtain ⟨⟨s1, s2⟩, s3⟩ := hr.2 (by rw [hf]; exact fun h => by cases h)
      dsimp only
      unfold absDiff
      omega

/-- Whatever delays a peer reports in whatever history: the variation is no more than half of the largest
sample, or than the distance between the smallest and the largest (with the initial value, if that is
smaller than the smallest sample), so that the probe timeout is bounded by the samples too. -/
theorem C116_variation {initial lo hi : Nat} {xs : List Sample} {r : Rtt} (hx : xs ≠ [])
    (h : (Rtt.new initial).run xs = .ok r) (h0 : lo ≤ initial) (h1 : ∀ x ∈ xs, lo ≤ x.time ∧ x.time ≤ hi) :
    r.var ≤ max (hi / 2) (hi - lo) ∧ ∀ confirmed, lo + granularity ≤ r.pto confirmed ∧
      r.pto confirmed ≤ hi + max (max (2 * hi) (4 * (hi - lo))) granularity + (if confirmed then r.maxAckDelay else 0) := by
  have hv : r.var ≤ max (hi / 2) (hi - lo) := by
    suffices H : ∀ (xs : List Sample) (q r : Rtt), xs ≠ [] → q.run xs = .ok r →
        lo ≤ q.min ∧ (q.first ≠ none → (lo ≤ q.smoothed ∧ q.smoothed ≤ hi) ∧ q.var ≤ max (hi / 2) (hi - lo)) →
        (∀ x ∈ xs, lo ≤ x.time ∧ x.time ≤ hi) → r.var ≤ max (hi / 2) (hi - lo) from
      H xs _ r hx h ⟨h0, fun hf => absurd rfl hf⟩ h1
    intro xs
    induction xs with
    | nil => intro q r hx; exact absurd rfl hx
    | cons x xs ih =>
      intro q r _ h hq h1
      unfold Rtt.run at h
      cases hu : q.update x.time x.delay x.src x.now with
      | error e => simp [hu] at h
      | ok q' =>
        simp only [hu] at h
        have hxx := h1 x (List.mem_cons_self ..)
        have hv := update_var hu hq hxx.1 hxx.2
        obtain ⟨a, _, c, _⟩ := update_range hu ⟨hq.1, fun hf => (hq.2 hf).1⟩ hxx.1 hxx.2
        cases xs with
        | nil => cases h; exact hv
        | cons y ys => exact ih q' r (fun h => by cases h) h ⟨a.1, fun _ => ⟨c, hv⟩⟩ (fun z hz => h1 z (List.mem_cons_of_mem _ hz))
  obtain ⟨_, _, s1, s2⟩ := C116_estimates_partial hx h h0 h1
  refine ⟨hv, fun confirmed => ?_⟩
  unfold Rtt.pto
  have e : Nat.max (4 * r.var) granularity = max (4 * r.var) granularity := rfl
  rw [e]
  omega

/-- The estimates of RFC 9002 §5.3, for any state and sample, rounded down to nanoseconds: the delay is limited
once the handshake is confirmed, and taken away unless that leaves less than the minimum; the first sample
starts the estimates; and later ones count an eighth, and their distance from the estimate, in whichever
direction, a quarter. -/
theorem C116_formulas {r r' : Rtt} {sample delay now : Nat} {src : Src} (h : r.update sample delay src now = .ok r') :
    (∀ d, d = (if src = .confirmed then min delay r.maxAckDelay else delay) →
      r'.latest = if min r.min sample + d ≤ sample then sample - d else sample) ∧
    (r.first = none → r'.smoothed = r'.latest ∧ r'.var = r'.latest / 2) ∧
    (r.first ≠ none → ∃ v : Nat, ((r.smoothed : Int) - r'.latest = v ∨ (r'.latest : Int) - r.smoothed = v) ∧
      (4 * r'.var ≤ 3 * r.var + v ∧ 3 * r.var + v < 4 * r'.var + 4) ∧
      (8 * r'.smoothed ≤ 7 * r.smoothed + r'.latest ∧ 7 * r.smoothed + r'.latest < 8 * r'.smoothed + 8)) := by
  have ha : ∀ d, d = (if src = .confirmed then min delay r.maxAckDelay else delay) →
      Rtt.adjust { r with best := src } sample delay = if min r.min sample + d ≤ sample then sample - d else sample := by
    intro d hd
    unfold Rtt.adjust
    have e : Nat.min r.min sample = min r.min sample := rfl
    dsimp only
    rw [e]
    have ed : (if src = Src.confirmed ∧ delay > r.maxAckDelay then r.maxAckDelay else delay) = d := by
      subst hd
      by_cases hs : src = .confirmed
      · simp only [hs, true_and, if_true]
        split <;> omega
      · simp only [hs, false_and, if_false]
    rw [ed]
    split <;> split <;> omega
  unfold Rtt.update at h
  split at h
  · cases h
  · dsimp only at h
    split at h
    · rename_i hf
      cases h
      exact ⟨ha, fun _ => ⟨rfl, rfl⟩, fun hn => absurd hf hn⟩
    · rename_i hf
      cases h
      refine ⟨ha, fun hn => ?_, fun _ => ?_⟩
      · rw [hf] at hn; cases hn
      · refine ⟨absDiff r.smoothed (Rtt.adjust { r with best := src } sample delay), ?_, ?_, ?_⟩
        · dsimp only; unfold absDiff; omega
        · dsimp only; omega
        · dsimp only; omega

theorem run_min : ∀ (xs : List Sample) (q r : Rtt), q.first ≠ none → q.run xs = .ok r →
    r.min = (xs.map Sample.time).foldl Nat.min q.min := by
  intro xs
  induction xs with
  | nil => intro q r _ h; cases h; rfl
  | cons x xs ih =>
    intro q r hf h
    unfold Rtt.run at h
    cases hu : q.update x.time x.delay x.src x.now with
    | error e => simp [hu] at h
    | ok q' =>
      simp only [hu] at h
      have : q'.min = Nat.min q.min x.time ∧ q'.first ≠ none := by
        unfold Rtt.update at hu
        split at hu
        · cases hu
        · dsimp only at hu
          split at hu
          · rename_i hn; exact absurd hn hf
          · cases hu; exact ⟨rfl, hf⟩
      rw [ih q' r this.2 h, this.1]
      rfl

/-- If the first acknowledgement reports no delay, the smallest round-trip time is exactly the smallest
sample, whatever is reported later. -/
theorem C116_min_partial {initial : Nat} {x : Sample} {xs : List Sample} {r : Rtt} (hx : x.delay = 0)
    (h : (Rtt.new initial).run (x :: xs) = .ok r) : r.min = (xs.map Sample.time).foldl Nat.min x.time := by
  unfold Rtt.run at h
  cases hu : (Rtt.new initial).update x.time x.delay x.src x.now with
  | error e => simp [hu] at h
  | ok q =>
    simp only [hu] at h
    have : q.min = x.time ∧ q.first ≠ none := by
      unfold Rtt.update at hu
      split at hu
      · cases hu
      · rw [show (Rtt.new initial).first = none from rfl] at hu
        cases hu
        refine ⟨?_, fun h => by cases h⟩
        dsimp only
        unfold Rtt.adjust
        rw [hx]
        dsimp only
        (repeat' split) <;> omega
    rw [run_min xs q r this.2 h, this.1]

/-- The smallest round-trip time is not always one that was measured: the delay that is reported with the
first sample is taken away from it, if the initial value leaves room for that. -/
theorem C116_min_not_measured : ∃ (xs : List Sample) (r : Rtt), (Rtt.new 100000000).run xs = .ok r ∧
    (∀ x ∈ xs, 150000000 ≤ x.time) ∧ r.min = 110000000 := by
  refine ⟨[⟨150000000, 40000000, .ack, 5⟩, ⟨160000000, 0, .ack, 9⟩], _, rfl, ?_, by decide⟩
  decide

/-! ## Examples -/

/-- The variation grows if a sample is shorter than the estimate, and if it is longer. -/
example : ∃ r a b, (Rtt.new 100000000).run [⟨80000000, 0, .ack, 5⟩] = .ok r ∧ r.first ≠ none ∧ r.var = 40000000 ∧
    r.update 400000000 0 .ack 9 = .ok a ∧ a.var = 110000000 ∧ r.update 0 0 .ack 9 = .ok b ∧ b.var = 50000000 := by
  refine ⟨_, _, _, rfl, ?_, by decide, rfl, by decide, rfl, by decide⟩
  exact fun h => by cases h

example :
    true = match (Rtt.new 100000000).run [⟨40000000, 0, .ack, 5⟩, ⟨80000000, 30000000, .confirmed, 9⟩] with
    | .ok r => decide (r.var = 18750000 ∧ r.pto true = 41875000 + 75000000 + 25000000)
    | .error _ => false := by decide +kernel

example : writtenDelay 12345678 = 1543 ∧ readDelay (some (fun _ => none)) 1543 = .ok 12344000 := by decide +kernel

example :
    true = match (Rtt.new 100000000).run [⟨50000000, 1000000, .ack, 5⟩, ⟨80000000, 30000000, .confirmed, 9⟩] with
    | .ok r => decide (r.min = 50000000 ∧ r.latest = 55000000)
    | .error _ => false := by decide +kernel

end Neqo.Rec
