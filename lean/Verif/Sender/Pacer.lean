import Verif.Lib.Basic
import Mathlib.Tactic.Ring

/-!
# Pacing: `neqo-transport/src/pace.rs`

Times are in nanoseconds.
-/
namespace Neqo.Pace

/-- `u64::MAX`. -/
def maxU64 : Nat := 18446744073709551615

/-- `u64::saturating_mul`. -/
def satMul (a b : Nat) : Nat := min (a * b) maxU64

/-- `struct Pacer` (pace.rs:29-41). -/
structure Pacer where
  enabled : Bool
  t : Nat
  m : Nat
  c : Int
  p : Nat
  deriving Repr, DecidableEq

/-- `Pacer::new` (pace.rs:64-74); `PacketSender::new` (sender.rs:40-117) gives twice the MTU for `m`. -/
def Pacer.new (enabled : Bool) (now m p : Nat) : Pacer := ⟨enabled, now, m, m, p⟩

/-- `Pacer::set_mtu` (pace.rs:80-82). -/
def Pacer.setMtu (q : Pacer) (p : Nat) : Pacer := { q with p }

/-- The wait in `Pacer::next` (pace.rs:97-106): `rtt * deficit / (2 * cwnd)`. -/
def wait (rtt cwnd deficit : Nat) : Nat := satMul rtt deficit / satMul cwnd 2

/-- `Pacer::next` (pace.rs:88-123).  The congestion window is never zero. -/
def Pacer.next (q : Pacer) (rtt cwnd : Nat) : Nat :=
  if (q.p : Int) ≤ q.c then q.t
  else if wait rtt cwnd (q.p - q.c).toNat < 1000000 then q.t
  else q.t + wait rtt cwnd (q.p - q.c).toNat

/-- `Pacer::bytes_for` (pace.rs:134-139). -/
def bytesFor (cwnd rtt elapsed : Nat) : Option Nat :=
  if rtt = 0 then none else some (satMul elapsed (satMul cwnd 2) / rtt)

/-- `Pacer::spend` (pace.rs:155-176), without the limits of `isize`. -/
def Pacer.spend (q : Pacer) (now rtt cwnd count : Nat) : Pacer :=
  if q.enabled = false then { q with t := now }
  else { q with c := min q.m (q.c + ((bytesFor cwnd rtt (now - q.t)).getD q.m : Nat) - count), t := now }

/-! ## Histories -/

/-- What the sender does.  Datagrams are sent when `next` allows it (`send_profile`,
recovery/mod.rs:1017-1048), or without asking: after a timeout, with nothing in flight, when only
ACK frames are sent, or for probes that are larger than the MTU.  A datagram is charged when it is
sent (`PacketSender::on_packet_sent`, sender.rs:230-234), here as a whole. -/
inductive Op where
  | paced (now rtt cwnd count : Nat)
  | free (now rtt cwnd count : Nat)
  | mtu (p : Nat)
  deriving Repr, DecidableEq

def step (q : Pacer) : Op → Pacer
  | .paced now rtt cwnd count => q.spend now rtt cwnd count
  | .free now rtt cwnd count => q.spend now rtt cwnd count
  | .mtu p => q.setMtu p

def run (q : Pacer) (ops : List Op) : Pacer := ops.foldl step q

/-- How many bytes are sent in datagrams that are paced. -/
def bytes : List Op → Nat
  | [] => 0
  | .paced _ _ _ n :: ops => n + bytes ops
  | _ :: ops => bytes ops

/-! ## Specification -/

/-- The round-trip time is at least `r`, the window at most `w`, times do not run backwards, and
paced datagrams are not longer than the MTU and not sent before the pacer allows it.  (Products are
within 64 bits, which they are if debts are less than 100 MB and round-trip times less than 100 s.) -/
def Respects (r w : Nat) : Pacer → List Op → Prop
  | _, [] => True
  | q, op :: ops => (match op with
    | .paced now rtt cwnd count => r ≤ rtt ∧ 0 < cwnd ∧ cwnd ≤ w ∧ q.t ≤ now ∧ q.next rtt cwnd ≤ now ∧ count ≤ q.p ∧
        (rtt : Int) * (q.p - q.c) ≤ maxU64
    | .free now rtt cwnd _ => r ≤ rtt ∧ 0 < cwnd ∧ cwnd ≤ w ∧ q.t ≤ now
    | .mtu _ => True) ∧ Respects r w (step q op) ops

/-! ## Lemmas -/

theorem satMul_le (a b : Nat) : satMul a b ≤ a * b := Nat.min_le_left _ _

theorem satMul_eq {a b : Nat} (h : a * b ≤ maxU64) : satMul a b = a * b := Nat.min_eq_left h

theorem satMul_cases (a b : Nat) : satMul a b = a * b ∨ (satMul a b = maxU64 ∧ maxU64 ≤ a * b) := by
  unfold satMul
  rcases Nat.le_total (a * b) maxU64 with h | h
  · exact .inl (Nat.min_eq_left h)
  · exact .inr ⟨Nat.min_eq_right h, h⟩

/-- Credit does not grow faster than the rate. -/
theorem credit_le {cwnd rtt e n : Nat} (h : bytesFor cwnd rtt e = some n) : rtt * n ≤ e * (cwnd * 2) := by
  unfold bytesFor at h
  by_cases h0 : rtt = 0
  · rw [if_pos h0] at h; cases h
  · rw [if_neg h0] at h
    injection h with h
    subst h
    refine Nat.le_trans (Nat.mul_div_le _ _) ?_
    exact Nat.le_trans (satMul_le _ _) (Nat.mul_le_mul_left e (satMul_le _ _))

/-- After the wait, there is enough credit, but for rounding. -/
theorem credit_ge {cwnd rtt e d n : Nat} (h : bytesFor cwnd rtt e = some n) (hc : 0 < cwnd) (h2 : cwnd * 2 ≤ maxU64)
    (hd : rtt * d ≤ maxU64) (hw : wait rtt cwnd d ≤ e) : d ≤ n ∨ rtt * (d - n - 1) ≤ cwnd * 2 := by
  unfold bytesFor at h
  by_cases h0 : rtt = 0
  · rw [if_pos h0] at h; cases h
  · rw [if_neg h0] at h
    injection h with h
    unfold wait at hw
    rw [satMul_eq hd, satMul_eq h2] at hw
    rw [satMul_eq h2] at h
    rcases satMul_cases e (cwnd * 2) with hs | ⟨hs, _⟩
    · rw [hs] at h
      by_cases hdn : d ≤ n
      · exact .inl hdn
      · right
        have h3 : rtt * d < (e + 1) * (cwnd * 2) := by
          have := Nat.lt_mul_div_succ (rtt * d) (show 0 < cwnd * 2 by omega)
          refine Nat.lt_of_lt_of_le this ?_
          rw [Nat.mul_comm]
          exact Nat.mul_le_mul_right _ (by omega)
        have h4 : e * (cwnd * 2) < rtt * (n + 1) := by
          have := Nat.lt_mul_div_succ (e * (cwnd * 2)) (Nat.pos_of_ne_zero h0)
          rw [h] at this; exact this
        obtain ⟨k, hk⟩ : ∃ k, d = n + 1 + k := ⟨d - n - 1, by omega⟩
        have h5 : rtt * d = rtt * (n + 1) + rtt * k := by rw [hk, Nat.mul_add]
        have h6 : (e + 1) * (cwnd * 2) = e * (cwnd * 2) + cwnd * 2 := by ring
        rw [show d - n - 1 = k by omega]
        omega
    · left
      rw [hs] at h
      rw [← h, Nat.le_div_iff_mul_le (Nat.pos_of_ne_zero h0), Nat.mul_comm]
      exact hd

theorem bytesFor_some {cwnd rtt : Nat} (e : Nat) (h : 0 < rtt) : ∃ n, bytesFor cwnd rtt e = some n := by
  unfold bytesFor; rw [if_neg (by omega)]; exact ⟨_, rfl⟩

theorem spend_eq {q : Pacer} {now rtt cwnd count n : Nat} (he : q.enabled = true) (hn : bytesFor cwnd rtt (now - q.t) = some n) :
    q.spend now rtt cwnd count = { q with c := min q.m (q.c + n - count), t := now } := by
  unfold Pacer.spend; rw [if_neg (by rw [he]; simp), hn]; rfl

/-- How the account develops with any datagram. -/
theorem account {r w : Nat} {q : Pacer} {now rtt cwnd count : Nat} (he : q.enabled = true) (hr : 0 < r)
    (h1 : r ≤ rtt) (h3 : cwnd ≤ w) (h4 : q.t ≤ now) :
    (r : Int) * ((q.spend now rtt cwnd count).c + count) ≤ r * q.c + 2 * w * (now - q.t) ∧
      (q.spend now rtt cwnd count).c ≤ q.m ∧ (q.spend now rtt cwnd count).t = now ∧
      (q.spend now rtt cwnd count).m = q.m ∧ (q.spend now rtt cwnd count).enabled = true := by
  obtain ⟨n, hn⟩ := bytesFor_some (cwnd := cwnd) (now - q.t) (show 0 < rtt by omega)
  rw [spend_eq he hn]
  refine ⟨?_, Int.min_le_left _ _, rfl, rfl, he⟩
  have h5 : r * n ≤ (now - q.t) * (w * 2) := by
    have := credit_le hn
    refine Nat.le_trans (Nat.mul_le_mul_right n h1) (Nat.le_trans this (Nat.mul_le_mul_left _ (by omega)))
  have h6 : ((r : Int)) * n ≤ 2 * w * (now - q.t) := by
    have h7 : ((r * n : Nat) : Int) ≤ (((now - q.t) * (w * 2) : Nat) : Int) := by exact_mod_cast h5
    push_cast [Nat.cast_sub h4] at h7
    calc (r : Int) * n ≤ (now - q.t) * (w * 2) := h7
      _ = 2 * w * (now - q.t) := by ring
  have h8 : min (q.m : Int) (q.c + n - count) + count ≤ q.c + n := by
    have := Int.min_le_right (q.m : Int) (q.c + n - count)
    omega
  calc (r : Int) * (min (q.m : Int) (q.c + n - count) + count) ≤ r * (q.c + n) :=
        Int.mul_le_mul_of_nonneg_left h8 (by omega)
    _ = r * q.c + r * n := by ring
    _ ≤ r * q.c + 2 * w * (now - q.t) := by omega

/-- After a paced datagram there is not much debt. -/
theorem debt {r w : Nat} {q : Pacer} {now rtt cwnd count : Nat} (he : q.enabled = true) (hr : 0 < r) (h2w : w * 2 ≤ maxU64)
    (h1 : r ≤ rtt) (h2 : 0 < cwnd) (h3 : cwnd ≤ w) (h5 : q.next rtt cwnd ≤ now)
    (h6 : count ≤ q.p) (h7 : (rtt : Int) * (q.p - q.c) ≤ maxU64) :
    -(2 * w * 1000000 + r : Int) ≤ r * (q.spend now rtt cwnd count).c := by
  obtain ⟨n, hn⟩ := bytesFor_some (cwnd := cwnd) (now - q.t) (show 0 < rtt by omega)
  rw [spend_eq he hn]
  dsimp only
  have hneg : -(2 * w * 1000000 + r : Int) ≤ 0 := by
    have : (0 : Int) ≤ 2 * w * 1000000 := by exact_mod_cast Nat.zero_le _
    omega
  -- it is enough to bound the uncapped account
  suffices h : -(2 * w * 1000000 + r : Int) ≤ r * (q.c + n - count) by
    rcases Int.le_total (q.m : Int) (q.c + n - count) with hm | hm
    · rw [Int.min_eq_left hm]
      exact Int.le_trans hneg (Int.mul_nonneg (by omega) (by omega))
    · rw [Int.min_eq_right hm]; exact h
  unfold Pacer.next at h5
  by_cases hc : (q.p : Int) ≤ q.c
  · exact Int.le_trans hneg (Int.mul_nonneg (by omega) (by omega))
  · rw [if_neg hc] at h5
    obtain ⟨d, hd⟩ : ∃ d : Nat, (q.p : Int) - q.c = d := ⟨(q.p - q.c).toNat, by omega⟩
    rw [hd, Int.toNat_natCast] at h5
    rw [hd] at h7
    have h7 : rtt * d ≤ maxU64 := by exact_mod_cast h7
    have h2c : cwnd * 2 ≤ maxU64 := Nat.le_trans (by omega) h2w
    -- whichever way it was allowed, the deficit without the credit is small
    have key : d ≤ n ∨ r * (d - n - 1) ≤ w * 2 * 1000000 := by
      by_cases hw : wait rtt cwnd d < 1000000
      · right
        unfold wait at hw
        rw [satMul_eq h7, satMul_eq h2c] at hw
        have h8 : rtt * d < cwnd * 2 * 1000000 := by
          rw [Nat.div_lt_iff_lt_mul (by omega)] at hw
          rw [Nat.mul_comm (cwnd * 2)]; exact hw
        have h9 : r * (d - n - 1) ≤ rtt * d := Nat.mul_le_mul h1 (by omega)
        have h10 : cwnd * 2 * 1000000 ≤ w * 2 * 1000000 := by omega
        omega
      · rw [if_neg hw] at h5
        rcases credit_ge hn h2 h2c h7 (by omega) with h8 | h8
        · exact .inl h8
        · right
          have h9 : r * (d - n - 1) ≤ rtt * (d - n - 1) := Nat.mul_le_mul_right _ h1
          omega
    have h8 : (q.c : Int) + n - count ≥ n - d := by omega
    have h9 : (r : Int) * (n - d) ≤ r * (q.c + n - count) := Int.mul_le_mul_of_nonneg_left h8 (by omega)
    refine Int.le_trans ?_ h9
    rcases key with hk | hk
    · exact Int.le_trans hneg (Int.mul_nonneg (by omega) (by omega))
    · by_cases hdn : d ≤ n
      · exact Int.le_trans hneg (Int.mul_nonneg (by omega) (by omega))
      · obtain ⟨k, rfl⟩ : ∃ k, d = n + 1 + k := ⟨d - n - 1, by omega⟩
        rw [show n + 1 + k - n - 1 = k by omega] at hk
        have h10 : ((r * k : Nat) : Int) ≤ ((w * 2 * 1000000 : Nat) : Int) := by exact_mod_cast hk
        push_cast at h10 ⊢
        have h11 : (r : Int) * (n - (n + 1 + k)) = -(r * k) - r := by ring
        rw [h11]
        omega

/-- What holds during a history: how the account relates to the bytes sent. -/
theorem run_bound {r w : Nat} (hr : 0 < r) (h2w : w * 2 ≤ maxU64) (t0 m : Nat) : ∀ (ops : List Op) (q : Pacer) (sent : Nat),
    q.enabled = true → q.m = m → t0 ≤ q.t →
    (r : Int) * (q.c + sent) ≤ r * m + 2 * w * (q.t - t0) →
    (r : Int) * sent ≤ r * (m + 1) + 2 * w * (q.t - t0 + 1000000) →
    Respects r w q ops →
    (r : Int) * (sent + bytes ops) ≤ r * (m + 1) + 2 * w * ((run q ops).t - t0 + 1000000) := by
  intro ops
  induction ops with
  | nil => intro q sent _ _ _ _ h2 _; simpa [bytes, run] using h2
  | cons op ops ih =>
    intro q sent he hm ht h1 h2 hR
    obtain ⟨hop, hR⟩ := hR
    cases op with
    | mtu p => exact ih (q.setMtu p) sent he hm ht h1 h2 hR
    | free now rtt cwnd count =>
      obtain ⟨g1, g2, g3, g4⟩ := hop
      obtain ⟨a1, a2, a3, a4, a5⟩ := account (count := count) he hr g1 g3 g4
      refine ih (q.spend now rtt cwnd count) sent a5 (a4.trans hm) (by rw [a3]; omega) ?_ ?_ hR
      · rw [a3]
        have hc : (0 : Int) ≤ r * count := by exact_mod_cast Nat.zero_le _
        have e1 : (r : Int) * ((q.spend now rtt cwnd count).c + count) = r * (q.spend now rtt cwnd count).c + r * count := by ring
        have e2 : (r : Int) * ((q.spend now rtt cwnd count).c + sent) = r * (q.spend now rtt cwnd count).c + r * sent := by ring
        have e3 : (r : Int) * (q.c + sent) = r * q.c + r * sent := by ring
        have e4 : (2 * w * (now - t0) : Int) = 2 * w * (now - q.t) + 2 * w * (q.t - t0) := by ring
        omega
      · rw [a3]
        have e4 : (2 * w * (now - t0 + 1000000) : Int) = 2 * w * (now - q.t) + 2 * w * (q.t - t0 + 1000000) := by ring
        have : (0 : Int) ≤ 2 * w * (now - q.t) := Int.mul_nonneg (by exact_mod_cast Nat.zero_le _) (by omega)
        omega
    | paced now rtt cwnd count =>
      obtain ⟨g1, g2, g3, g4, g5, g6, g7⟩ := hop
      obtain ⟨a1, a2, a3, a4, a5⟩ := account (count := count) he hr g1 g3 g4
      have hd := debt he hr h2w g1 g2 g3 g5 g6 g7
      have e1 : (r : Int) * ((q.spend now rtt cwnd count).c + count) = r * (q.spend now rtt cwnd count).c + r * count := by ring
      have e2 : (r : Int) * ((q.spend now rtt cwnd count).c + (sent + count : Nat)) = r * (q.spend now rtt cwnd count).c + r * sent + r * count := by
        push_cast; ring
      have e3 : (r : Int) * (q.c + sent) = r * q.c + r * sent := by ring
      have e4 : (2 * w * (now - t0) : Int) = 2 * w * (now - q.t) + 2 * w * (q.t - t0) := by ring
      have h1' : (r : Int) * ((q.spend now rtt cwnd count).c + (sent + count : Nat)) ≤ r * m + 2 * w * (now - t0) := by omega
      have := ih (q.spend now rtt cwnd count) (sent + count) a5 (a4.trans hm) (by rw [a3]; omega) (by rw [a3]; exact h1') (by
        rw [a3]
        have e5 : (2 * w * (now - t0 + 1000000) : Int) = 2 * w * (now - t0) + 2 * w * 1000000 := by ring
        have e6 : (r : Int) * (m + 1) = r * m + r := by ring
        have e7 : (r : Int) * (sent + count : Nat) = r * sent + r * count := by push_cast; ring
        omega) hR
      rw [show (sent : Int) + (bytes (.paced now rtt cwnd count :: ops) : Nat) = (sent + count : Nat) + bytes ops by
        rw [show bytes (.paced now rtt cwnd count :: ops) = count + bytes ops from rfl]; push_cast; ring]
      exact this

theorem spend_keeps (q : Pacer) (now rtt cwnd count : Nat) (h : q.c ≤ q.m) :
    (q.spend now rtt cwnd count).c ≤ q.m ∧ (q.spend now rtt cwnd count).m = q.m ∧
      (q.spend now rtt cwnd count).enabled = q.enabled := by
  unfold Pacer.spend
  split
  · exact ⟨h, rfl, rfl⟩
  · exact ⟨Int.min_le_left _ _, rfl, rfl⟩

theorem run_keeps (ops : List Op) : ∀ q : Pacer, q.c ≤ q.m →
    (run q ops).c ≤ q.m ∧ (run q ops).m = q.m ∧ (run q ops).enabled = q.enabled := by
  induction ops with
  | nil => intro q h; exact ⟨h, rfl, rfl⟩
  | cons op ops ih =>
    intro q h
    have hs : ∀ now rtt cwnd count, (run (q.spend now rtt cwnd count) ops).c ≤ q.m ∧ (run (q.spend now rtt cwnd count) ops).m = q.m ∧
        (run (q.spend now rtt cwnd count) ops).enabled = q.enabled := by
      intro now rtt cwnd count
      obtain ⟨h1, h2, h3⟩ := spend_keeps q now rtt cwnd count h
      have := ih (q.spend now rtt cwnd count) (by rw [h2]; exact h1)
      rw [h2, h3] at this
      exact this
    cases op with
    | mtu p => exact ih (q.setMtu p) h
    | free now rtt cwnd count => exact hs ..
    | paced now rtt cwnd count => exact hs ..

/-! ## The properties -/

/-- C82: in any part of the life of a sender, the paced datagrams have together at most as many
bytes as one burst, and what can be sent during that time and one millisecond at two windows per
round-trip time.  (Multiplied by the round-trip time; the one byte is for rounding.) -/
theorem C82_rate (start m p r w : Nat) (hr : 0 < r) (hw : w * 2 ≤ maxU64) (before ops : List Op)
    (h : Respects r w (run (Pacer.new true start m p) before) ops) (from_ till : Nat)
    (hfrom : (run (Pacer.new true start m p) before).t = from_)
    (htill : (run (Pacer.new true start m p) (before ++ ops)).t = till) :
    (r : Int) * bytes ops ≤ r * (m + 1) + 2 * w * (till - from_ + 1000000) := by
  obtain ⟨h1, h2, h3⟩ := run_keeps before (Pacer.new true start m p) (Int.le_refl _)
  have e : run (Pacer.new true start m p) (before ++ ops) = run (run (Pacer.new true start m p) before) ops := by
    unfold run; rw [List.foldl_append]
  rw [e] at htill
  have h1 : (run (Pacer.new true start m p) before).c ≤ (m : Int) := h1
  have h2 : (run (Pacer.new true start m p) before).m = m := h2
  have h3 : (run (Pacer.new true start m p) before).enabled = true := h3
  generalize run (Pacer.new true start m p) before = q at *
  have hb := run_bound hr hw q.t m ops q 0 h3 h2 (Nat.le_refl _) (by
    have : (r : Int) * q.c ≤ r * m := Int.mul_le_mul_of_nonneg_left h1 (by omega)
    simpa using this) (by
    have e1 : (2 * w * ((q.t : Int) - q.t + 1000000)) = 2 * w * 1000000 := by ring
    rw [e1]
    have : (0 : Int) ≤ 2 * w * 1000000 := by exact_mod_cast Nat.zero_le _
    have : (0 : Int) ≤ r * (m + 1) := by exact_mod_cast Nat.zero_le _
    push_cast; omega) h
  rw [htill, hfrom] at hb
  simpa using hb

/-- C82: after a paced datagram, the next one need not wait longer than it takes to send one packet
at two windows per round-trip time, and one millisecond. -/
theorem C82_wait (q : Pacer) (he : q.enabled = true) (now r w count : Nat) (hr : 0 < r) (hw : 0 < w) (h2w : w * 2 ≤ maxU64)
    (hn : q.next r w ≤ now) (hp : count ≤ q.p) (hs : (r : Int) * (q.p - q.c) ≤ maxU64) :
    (2 * w : Int) * ((q.spend now r w count).next r w - now) ≤ r * (q.p + 1) + 2 * w * 1000000 := by
  have hd := debt he hr h2w (Nat.le_refl r) hw (Nat.le_refl w) hn hp hs
  have hk : (q.spend now r w count).t = now ∧ (q.spend now r w count).p = q.p := by
    unfold Pacer.spend; split <;> exact ⟨rfl, rfl⟩
  generalize q.spend now r w count = q' at hd hk
  have hpos : (0 : Int) ≤ r * (q.p + 1) + 2 * w * 1000000 := by exact_mod_cast Nat.zero_le _
  unfold Pacer.next
  rw [hk.1, hk.2]
  split
  · simpa using hpos
  · split
    · simpa using hpos
    · rename_i hlt _
      obtain ⟨d, hd'⟩ : ∃ d : Nat, (q.p : Int) - q'.c = d := ⟨(q.p - q'.c).toNat, by omega⟩
      rw [hd', Int.toNat_natCast]
      have h1 : wait r w d * (2 * w) ≤ r * d := by
        unfold wait
        rw [satMul_eq h2w, Nat.mul_comm 2 w]
        exact Nat.le_trans (Nat.div_mul_le_self _ _) (satMul_le _ _)
      have h2 : ((wait r w d * (2 * w) : Nat) : Int) ≤ ((r * d : Nat) : Int) := by exact_mod_cast h1
      push_cast at h2 ⊢
      rw [← hd'] at h2
      have e1 : (2 * w : Int) * (now + wait r w d - now) = wait r w d * (2 * w) := by ring
      have e2 : (r : Int) * (q.p - q'.c) = r * q.p - r * q'.c := by ring
      have e3 : (r : Int) * (q.p + 1) = r * q.p + r := by ring
      rw [e1]; omega

/-- C82: a sender that is not to pace never waits.  Partial: as long as the MTU is not larger than
the burst with which the pacer was made; see `C82_disabled_delays`. -/
theorem C82_disabled_partial (start m p : Nat) (hp : p ≤ m) (ops : List Op) (hm : ∀ n, .mtu n ∈ ops → n ≤ m) (rtt cwnd : Nat) :
    (run (Pacer.new false start m p) ops).next rtt cwnd = (run (Pacer.new false start m p) ops).t := by
  have key : ∀ (ops : List Op) (q : Pacer), q.enabled = false → q.c = m → q.p ≤ m → (∀ n, .mtu n ∈ ops → n ≤ m) →
      (run q ops).c = m ∧ (run q ops).p ≤ m := by
    intro ops
    induction ops with
    | nil => intro q _ h1 h2 _; exact ⟨h1, h2⟩
    | cons op ops ih =>
      intro q he h1 h2 hm
      have hs : ∀ now rtt cwnd count, q.spend now rtt cwnd count = { q with t := now } := by
        intro now rtt cwnd count; unfold Pacer.spend; rw [if_pos he]
      have hm' : ∀ n, .mtu n ∈ ops → n ≤ m := fun n hn => hm n (List.mem_cons_of_mem _ hn)
      cases op with
      | mtu n => exact ih (q.setMtu n) he h1 (hm n List.mem_cons_self) hm'
      | free now rtt cwnd count =>
        have := ih { q with t := now } he h1 h2 hm'
        unfold run; rw [List.foldl_cons]; unfold step; dsimp only; rw [hs]; exact this
      | paced now rtt cwnd count =>
        have := ih { q with t := now } he h1 h2 hm'
        unfold run; rw [List.foldl_cons]; unfold step; dsimp only; rw [hs]; exact this
  obtain ⟨h1, h2⟩ := key ops (Pacer.new false start m p) rfl rfl hp hm
  unfold Pacer.next
  rw [if_pos (by rw [h1]; exact_mod_cast h2)]

/-! ## What goes wrong -/

/-- The burst stays at twice the first MTU (`m`; pace.rs:80-82 changes only `p`), and `next` does not
look whether pacing is enabled.  So when the MTU grows to 8191 (payload 8163), packets are delayed
although pacing is disabled: with a round-trip time of 100 ms and a window of ten such packets by 3.4 ms. -/
theorem C82_disabled_delays :
    (run (Pacer.new false 0 2504 1252) [.mtu 8163, .paced 5000000 100000000 81630 8163]).next 100000000 81630 = 5000000 + 3466250 := by
  decide

/-- After a pause, credit for a full burst remains after the first datagram: it is limited after
the datagram is subtracted, not before, as the comment says (pace.rs:170-177).  Three datagrams can
leave at once, although a burst is two. -/
theorem C82_burst_of_three :
    Respects 100000000 12520 (Pacer.new true 0 2504 1252) [.free 0 100000000 12520 1252, .paced 1000000000 100000000 12520 1252,
      .paced 1000000000 100000000 12520 1252, .paced 1000000000 100000000 12520 1252] := by
  simp only [Respects, and_true]
  decide

/-! ## Examples -/

/-- Ten packets, paced over half a round-trip time of 100 ms: 5 ms each. -/
example : (run (Pacer.new true 0 2504 1252) [.paced 0 100000000 12520 1252, .paced 0 100000000 12520 1252]).next 100000000 12520 = 5000000 ∧
    (run (Pacer.new true 0 2504 1252) [.paced 0 100000000 12520 1252, .paced 0 100000000 12520 1252,
      .paced 5000000 100000000 12520 1252]).next 100000000 12520 = 10000000 := by decide

example : Respects 100000000 13000 (Pacer.new true 0 2504 1252)
    [.paced 0 100000000 12520 1252, .paced 0 100000000 12520 1252, .paced 5000000 100000000 12520 1252, .free 5000000 100000000 12520 40,
      .mtu 1352, .paced 11000000 100000000 13000 1352] ∧
    bytes [.paced 0 100000000 12520 1252, .free 5000000 100000000 12520 40] = 1252 := by
  simp only [Respects, and_true]
  decide

end Neqo.Pace
