import Verif.Lib.Basic

/-!
# ECN validation of a path: `neqo-transport/src/ecn.rs`
-/
namespace Neqo.Ecn

/-- `Count` (ecn.rs:75) without the count of unmarked packets, which no ACK frame carries. -/
structure Count where
  ect0 : Nat
  ect1 : Nat
  ce : Nat
  deriving Repr, DecidableEq

/-- `Count::sub` (ecn.rs:115-121). -/
def Count.sub (a b : Count) : Count := ⟨a.ect0 - b.ect0, a.ect1 - b.ect1, a.ce - b.ce⟩

/-- `ValidationError` (ecn.rs:148-152). -/
inductive Verr where
  | blackHole | bleaching | receivedUnsentEct1
  deriving Repr, DecidableEq

/-- `ValidationState` (ecn.rs:26-44). -/
inductive St where
  | notStarted
  | testing (sent acked lost : Nat)
  | unknown
  | failed (e : Verr)
  | capable
  deriving Repr, DecidableEq

/-- `struct Info` (ecn.rs:160-170). -/
structure Info where
  state : St := .notStarted
  largest : Nat := 0
  base : Count := ⟨0, 0, 0⟩
  deriving Repr, DecidableEq

/-- `Info::start` (ecn.rs:173-186). -/
def Info.start (i : Info) : Info :=
  match i.state with
  | .notStarted => { i with state := .testing 0 0 0 }
  | _ => i

/-- `Info::on_packet_sent` (ecn.rs:202-211); `TEST_COUNT` is 10 (ecn.rs:15). -/
def Info.onSent (i : Info) (n : Nat) : Info :=
  match i.state with
  | .testing s a l => if 10 ≤ s + n then { i with state := .unknown } else { i with state := .testing (s + n) a l }
  | _ => i

/-- `Info::disable_ecn` (ecn.rs:214-216). -/
def Info.disable (i : Info) (e : Verr) : Info := { i with state := .failed e }

/-- `Info::acked_ecn` (ecn.rs:236-244), for each of `n` marked packets. -/
def Info.ackedEcn (i : Info) (n : Nat) : Info :=
  match i.state with
  | .testing s a l => { i with state := .testing s (a + n) l }
  | _ => i

/-- `Info::lost_ecn` (ecn.rs:247-264), for one packet; `TEST_COUNT_INITIAL_PHASE` is 3 (ecn.rs:21). -/
def Info.lostEcn (i : Info) : Info :=
  match i.state with
  | .testing s a l => if a = 0 ∧ l + 1 = 3 then i.disable .blackHole else { i with state := .testing s a (l + 1) }
  | _ => i

/-- The tokens of packets declared lost (connection/mod.rs:3605), for `n` marked packets. -/
def Info.lost (i : Info) : Nat → Info
  | 0 => i
  | n + 1 => i.lostEcn.lost n

/-- A packet that is acknowledged for the first time. -/
structure Pkt where
  pn : Nat
  marked : Bool
  deriving Repr, DecidableEq

/-- How many of the packets were sent with a mark (`ecn_marked_ect0`, recovery/sent.rs:84-88). -/
def marked (l : List Pkt) : Nat := (l.filter (·.marked)).length

/-- The end of `Info::validate_ack_ecn_and_update` (ecn.rs:304-337), with counts. -/
def Info.judge (i : Info) (first : Pkt) (acked : List Pkt) (c : Count) : Info :=
  let d := c.sub i.base
  let s := if d.ect0 + d.ce < marked (first :: acked) then St.failed .bleaching
    else if 0 < d.ect1 then St.failed .receivedUnsentEct1
    else .capable
  { state := s, largest := first.pn, base := c }

/-- `Info::validate_ack_ecn_and_update` (ecn.rs:267-337).  The caller has at least one packet
(recovery/mod.rs:648-651). -/
def Info.validate (i : Info) (first : Pkt) (acked : List Pkt) (c : Option Count) : Info :=
  if first.pn ≤ i.largest then i
  else match i.state, c with
    | .notStarted, _ | .testing .., _ | .failed _, _ => i
    | _, none => i.disable .bleaching
    | _, some c => i.judge first acked c

/-- `Info::on_packets_acked` (ecn.rs:221-233): also whether there are new CE marks. -/
def Info.onAcked (i : Info) (first : Pkt) (acked : List Pkt) (c : Option Count) : Info × Bool :=
  let j := i.validate first acked c
  (j, decide (j.state = .capable ∧ 0 < (j.base.sub i.base).ce))

/-- `Info::is_marking` (ecn.rs:339-346). -/
def Info.marking (i : Info) : Bool :=
  match i.state with
  | .testing .. | .capable => true
  | _ => false

/-! ## Histories -/

/-- What can happen on a path: datagrams are sent together; packets are acknowledged, of which the
first one has the largest number, and then their tokens are handled (connection/mod.rs:3656-3682);
marked packets are declared lost; path validation fails (path.rs:825-845). -/
inductive Op where
  | start
  | send (n : Nat)
  | acked (first : Pkt) (rest : List Pkt) (c : Option Count)
  | lost (n : Nat)
  | probeFailed
  deriving Repr, DecidableEq

def step (i : Info) : Op → Info
  | .start => i.start
  | .send n => i.onSent n
  | .acked f r c => (i.onAcked f r c).1.ackedEcn (marked (f :: r))
  | .lost n => i.lost n
  | .probeFailed => if i.marking then i.disable .blackHole else i

def run (i : Info) (ops : List Op) : Info := ops.foldl step i

/-- The number of datagrams sent with a mark by a call (`Path::datagram_batch`, path.rs:762-781;
`Path::tos`, path.rs:633-635). -/
def marks (i : Info) : Op → Nat
  | .send n => if i.marking then n else 0
  | _ => 0

/-- The number of datagrams sent with a mark. -/
def markedDatagrams : Info → List Op → Nat
  | _, [] => 0
  | i, op :: ops => marks i op + markedDatagrams (step i op) ops

/-! ## Specification -/

/-- The counts of an ACK frame are as they should be (RFC 9000 §13.4.2.1): they are there, they
increased by at least the number of marked packets that are newly acknowledged, and there are no new
marks that are never used. -/
def Valid (before : Count) (newly : List Pkt) (counts : Option Count) : Prop :=
  ∃ c, counts = some c ∧ marked newly ≤ (c.ect0 - before.ect0) + (c.ce - before.ce) ∧ c.ect1 ≤ before.ect1

/-- An honest peer on a path that keeps the marks: it acknowledges all packets that it received, so
that its counts are the numbers of marked packets acknowledged so far; they never shrink. -/
def Honest : (total : Nat) → (last : Count) → List Op → Prop
  | _, _, [] => True
  | total, last, .acked f r c :: ops =>
    (∃ n, c = some n ∧ n.ect0 + n.ce = total + marked (f :: r) ∧ last.ect0 ≤ n.ect0 ∧ last.ce ≤ n.ce ∧ n.ect1 = 0 ∧
      Honest (total + marked (f :: r)) n ops)
  | total, last, _ :: ops => Honest total last ops

/-! ## The properties -/

theorem lost_ne_testing {i : Info} (h : ∀ s a l, i.state ≠ .testing s a l) (n : Nat) : i.lost n = i := by
  have h1 : i.lostEcn = i := by
    unfold Info.lostEcn
    split
    · rename_i s a l hs; exact absurd hs (h s a l)
    · rfl
  induction n with
  | zero => rfl
  | succ n ih => unfold Info.lost; rw [h1]; exact ih

theorem failed_step (i : Info) (e : Verr) (h : i.state = .failed e) (op : Op) : step i op = i := by
  cases op with
  | start => unfold step Info.start; rw [h]
  | send n => unfold step Info.onSent; rw [h]
  | acked f r c =>
    have hv : i.validate f r c = i := by unfold Info.validate; rw [h]; split <;> rfl
    unfold step Info.onAcked Info.ackedEcn
    dsimp only
    rw [hv, h]
  | lost n => exact lost_ne_testing (by rw [h]; intros; simp) n
  | probeFailed => unfold step Info.marking; rw [h]; rfl

/-- C81: once the test has failed, no packet is marked again, whatever happens. -/
theorem C81_failed_for_good (i : Info) (e : Verr) (h : i.state = .failed e) (ops : List Op) :
    (run i ops).state = .failed e ∧ markedDatagrams i ops = 0 := by
  induction ops with
  | nil => exact ⟨h, rfl⟩
  | cons op ops ih =>
    unfold run markedDatagrams
    rw [List.foldl_cons, failed_step i e h op]
    refine ⟨ih.1, ?_⟩
    rw [ih.2]
    cases op <;> simp [marks, Info.marking, h]

/-- How many datagrams may still be marked before the test ends. -/
def budget (b : Nat) : St → Nat
  | .notStarted => 9 + b
  | .testing s _ _ => 9 + b - s
  | _ => 0

theorem lost_testing (n : Nat) : ∀ i : Info, (∃ s a l, i.state = .testing s a l) →
    (∃ s a l a' l', i.state = .testing s a l ∧ (i.lost n).state = .testing s a' l') ∨ (i.lost n).state = .failed .blackHole := by
  induction n with
  | zero => intro i ⟨s, a, l, h⟩; exact .inl ⟨s, a, l, a, l, h, h⟩
  | succ n ih =>
    intro i ⟨s, a, l, h⟩
    unfold Info.lost
    by_cases hc : a = 0 ∧ l + 1 = 3
    · have : i.lostEcn = i.disable .blackHole := by unfold Info.lostEcn; rw [h]; dsimp only; rw [if_pos hc]
      rw [this, lost_ne_testing (by intros; simp [Info.disable])]
      exact .inr rfl
    · have : i.lostEcn = { i with state := .testing s a (l + 1) } := by
        unfold Info.lostEcn; rw [h]; dsimp only; rw [if_neg hc]
      rw [this]
      rcases ih { i with state := .testing s a (l + 1) } ⟨s, a, l + 1, rfl⟩ with ⟨s', a0, l0, a', l', h1, h2⟩ | h1
      · cases h1; exact .inl ⟨s, a, l, a', l', h, h2⟩
      · exact .inr h1

theorem budget_step (b : Nat) (i : Info) (op : Op) (hb : ∀ n, op = .send n → n ≤ b) (hc : i.state ≠ .capable)
    (hs : ∀ s a l, i.state = .testing s a l → s ≤ 9) :
    marks i op + budget b (step i op).state ≤ budget b i.state ∧
      (∀ s a l, (step i op).state = .testing s a l → s ≤ 9) := by
  unfold marks
  cases op with
  | start =>
    unfold step Info.start
    cases h : i.state with
    | notStarted => simp [budget]
    | testing s a l => rw [h] at hs; have := hs s a l rfl; simp [h, budget]; exact this
    | _ => simp [h]
  | send n =>
    have hb := hb n rfl
    unfold step Info.onSent Info.marking
    cases h : i.state with
    | testing s a l =>
      have h9 := hs s a l h
      dsimp only
      by_cases h10 : 10 ≤ s + n
      · rw [if_pos h10]
        simp only [budget, ite_true]
        exact ⟨by omega, by intro s a l h; cases h⟩
      · rw [if_neg h10]
        simp only [budget, ite_true]
        exact ⟨by omega, by intro s' a' l' h; cases h; omega⟩
    | capable => exact absurd h hc
    | _ => simp [h]
  | acked f r c =>
    unfold step Info.onAcked
    dsimp only
    have hv : (i.validate f r c).state = i.state ∨ (i.validate f r c).state = .capable ∨ ∃ e, (i.validate f r c).state = .failed e := by
      unfold Info.validate
      split
      · exact .inl rfl
      · split
        · exact .inl rfl
        · exact .inl rfl
        · exact .inl rfl
        · exact .inr (.inr ⟨_, rfl⟩)
        · unfold Info.judge
          dsimp only
          split
          · exact .inr (.inr ⟨_, rfl⟩)
          · split
            · exact .inr (.inr ⟨_, rfl⟩)
            · exact .inr (.inl rfl)
    unfold Info.ackedEcn
    generalize i.validate f r c = j at hv
    rcases hv with hv | hv | ⟨e, hv⟩
    · cases h : i.state with
      | testing s a l =>
        rw [hv, h]; dsimp only
        have := hs s a l h
        exact ⟨by simp [budget], by intro s' a' l' h'; cases h'; exact this⟩
      | _ => rw [hv, h]; dsimp only; rw [hv, h]; simp
    · rw [hv]; dsimp only; rw [hv]; simp [budget]
    · rw [hv]; dsimp only; rw [hv]; simp [budget]
  | lost n =>
    unfold step
    dsimp only
    cases h : i.state with
    | testing s a l =>
      have h9 := hs s a l h
      rcases lost_testing n i ⟨s, a, l, h⟩ with ⟨s', a0, l0, a', l', h1, h2⟩ | h1
      · rw [h] at h1; cases h1
        rw [h2]
        exact ⟨by simp [budget], by intro s' a' l' h'; cases h'; exact h9⟩
      · rw [h1]; simp [budget]
    | _ => rw [lost_ne_testing (by rw [h]; intros; simp)]; simp [h]
  | probeFailed =>
    unfold step
    dsimp only
    split
    · simp [Info.disable, budget]
    · exact ⟨by simp, hs⟩

/-- C81: until the path is found to be capable, no more packets are marked than are needed for the
test: 10, if datagrams are sent one by one, and otherwise those that are sent together with the last
one. -/
theorem C81_few_marked (b : Nat) (ops : List Op) (hb : ∀ n, .send n ∈ ops → n ≤ b)
    (hc : ∀ k, (run {} (ops.take k)).state ≠ .capable) : markedDatagrams {} ops ≤ 9 + b := by
  have key : ∀ (ops : List Op) (i : Info), (∀ n, .send n ∈ ops → n ≤ b) → (∀ k, (run i (ops.take k)).state ≠ .capable) →
      (∀ s a l, i.state = .testing s a l → s ≤ 9) → markedDatagrams i ops ≤ budget b i.state := by
    intro ops
    induction ops with
    | nil => intro i _ _ _; exact Nat.zero_le _
    | cons op ops ih =>
      intro i hb hc hs
      obtain ⟨h1, h2⟩ := budget_step b i op (fun n hn => hb n (by rw [hn]; exact List.mem_cons_self)) (hc 0) hs
      have := ih (step i op) (fun n hn => hb n (List.mem_cons_of_mem _ hn)) (fun k => hc (k + 1)) h2
      unfold markedDatagrams
      omega
  exact key ops {} hb hc (by intro s a l h; cases h)

/-- The state after an acknowledgment that is used for validation. -/
theorem judge_state (i : Info) (f : Pkt) (r : List Pkt) (c : Count) :
    ((i.judge f r c).state = .capable ↔ Valid i.base (f :: r) (some c)) ∧
      ((i.judge f r c).state = .capable ∨ ∃ e, (i.judge f r c).state = .failed e) := by
  unfold Info.judge Valid Count.sub
  dsimp only
  by_cases h1 : c.ect0 - i.base.ect0 + (c.ce - i.base.ce) < marked (f :: r)
  · rw [if_pos h1]
    refine ⟨⟨(by intro h; cases h), ?_⟩, .inr ⟨_, rfl⟩⟩
    rintro ⟨c', hc, h, _⟩; cases hc; omega
  · rw [if_neg h1]
    by_cases h2 : 0 < c.ect1 - i.base.ect1
    · rw [if_pos h2]
      refine ⟨⟨(by intro h; cases h), ?_⟩, .inr ⟨_, rfl⟩⟩
      rintro ⟨c', hc, _, h⟩; cases hc; omega
    · rw [if_neg h2]
      exact ⟨⟨fun _ => ⟨c, rfl, by omega, by omega⟩, fun _ => rfl⟩, .inl rfl⟩

/-- C81: after the test, each acknowledgment of a packet with a number larger than before decides:
the path is capable if the counts are as they should be, and has failed otherwise; the counts are
compared with those of the last such acknowledgment.  Others decide nothing. -/
theorem C81_decided (i : Info) (h : i.state = .unknown ∨ i.state = .capable) (f : Pkt) (r : List Pkt) (c : Option Count) :
    (i.largest < f.pn →
      ((step i (.acked f r c)).state = .capable ↔ Valid i.base (f :: r) c) ∧
      ((step i (.acked f r c)).state = .capable ∨ ∃ e, (step i (.acked f r c)).state = .failed e) ∧
      (∀ n, c = some n → (step i (.acked f r c)).base = n ∧ (step i (.acked f r c)).largest = f.pn)) ∧
    (f.pn ≤ i.largest → step i (.acked f r c) = i) := by
  have key : ∀ j : Info, (j.state = .unknown ∨ j.state = .capable ∨ ∃ e, j.state = .failed e) → ∀ n, j.ackedEcn n = j := by
    intro j hj n
    unfold Info.ackedEcn
    rcases hj with hj | hj | ⟨e, hj⟩ <;> rw [hj]
  unfold step Info.onAcked Info.validate
  dsimp only
  constructor
  · intro hlt
    rw [if_neg (by omega)]
    cases c with
    | none =>
      have : (match i.state, (none : Option Count) with
          | .notStarted, _ | .testing .., _ | .failed _, _ => i
          | _, none => i.disable .bleaching
          | _, some c => i.judge f r c) = i.disable .bleaching := by
        rcases h with h | h <;> rw [h]
      rw [this, key _ (.inr (.inr ⟨_, rfl⟩))]
      refine ⟨⟨(by intro h; cases h), ?_⟩, .inr ⟨_, rfl⟩, (by intro n hn; cases hn)⟩
      rintro ⟨c, hc, _⟩; cases hc
    | some c =>
      have : (match i.state, (some c : Option Count) with
          | .notStarted, _ | .testing .., _ | .failed _, _ => i
          | _, none => i.disable .bleaching
          | _, some c => i.judge f r c) = i.judge f r c := by
        rcases h with h | h <;> rw [h]
      obtain ⟨h1, h2⟩ := judge_state i f r c
      rw [this, key _ (.inr h2)]
      exact ⟨h1, h2, fun n hn => by cases hn; exact ⟨rfl, rfl⟩⟩
  · intro hle
    rw [if_pos hle]
    exact key i (h.elim .inl fun h => .inr (.inl h)) _

/-- C81: an acknowledgment is taken for a report of congestion if and only if the path is capable
after it, it is for a packet with a larger number than before, and its count of CE marks is larger
than in the last one that was. -/
theorem C81_congestion (i : Info) (f : Pkt) (r : List Pkt) (c : Option Count) :
    (i.onAcked f r c).2 = true ↔ (i.state = .unknown ∨ i.state = .capable) ∧ i.largest < f.pn ∧ Valid i.base (f :: r) c ∧
      ∃ n, c = some n ∧ i.base.ce < n.ce := by
  unfold Info.onAcked Info.validate
  dsimp only
  rw [decide_eq_true_iff]
  by_cases hle : f.pn ≤ i.largest
  · rw [if_pos hle]
    simp [Count.sub]; omega
  · rw [if_neg hle]
    have hlt : i.largest < f.pn := by omega
    cases hs : i.state with
    | notStarted => simp [hs]
    | testing => simp [hs]
    | failed => simp [hs]
    | unknown =>
      cases c with
      | none => simp [Info.disable]
      | some c =>
        simp only [hlt, true_and, true_or]
        rw [(judge_state i f r c).1]
        simp [Info.judge, Count.sub]
        intro _; omega
    | capable =>
      cases c with
      | none => simp [Info.disable]
      | some c =>
        simp only [hlt, true_and, or_true]
        rw [(judge_state i f r c).1]
        simp [Info.judge, Count.sub]
        intro _; omega

/-- What holds with an honest peer. -/
structure H (total : Nat) (last : Count) (i : Info) : Prop where
  sum : last.ect0 + last.ce = total
  base : i.base.ect0 ≤ last.ect0 ∧ i.base.ce ≤ last.ce ∧ i.base.ect1 = 0
  state : ∀ e, i.state = .failed e → e = .blackHole

theorem lostEcn_base (i : Info) : i.lostEcn.base = i.base := by
  unfold Info.lostEcn; split
  · split <;> rfl
  · rfl

theorem lost_base (n : Nat) : ∀ i : Info, (i.lost n).base = i.base := by
  induction n with
  | zero => intro i; rfl
  | succ n ih => intro i; unfold Info.lost; rw [ih, lostEcn_base]

theorem ackedEcn_base (i : Info) (n : Nat) : (i.ackedEcn n).base = i.base ∧
    ∀ e, (i.ackedEcn n).state = .failed e → i.state = .failed e := by
  unfold Info.ackedEcn
  split
  · exact ⟨rfl, by intro e h; cases h⟩
  · exact ⟨rfl, fun e h => h⟩

theorem honest_run (ops : List Op) : ∀ total last i, H total last i → Honest total last ops →
    ∀ e, (run i ops).state = .failed e → e = .blackHole := by
  induction ops with
  | nil => intro total last i h _; exact h.state
  | cons op ops ih =>
    intro total last i h hh
    cases op with
    | start =>
      refine ih total last i.start ⟨h.sum, ?_, ?_⟩ hh
      · unfold Info.start; split <;> exact h.base
      · unfold Info.start; split
        · intro e he; cases he
        · exact h.state
    | send n =>
      refine ih total last (i.onSent n) ⟨h.sum, ?_, ?_⟩ hh
      · unfold Info.onSent; split
        · split <;> exact h.base
        · exact h.base
      · unfold Info.onSent; split
        · split <;> intro e he <;> cases he
        · exact h.state
    | lost n =>
      refine ih total last (i.lost n) ⟨h.sum, by rw [lost_base]; exact h.base, ?_⟩ hh
      intro e he
      by_cases ht : ∃ s a l, i.state = .testing s a l
      · rcases lost_testing n i ht with ⟨s', a0, l0, a', l', h1, h2⟩ | h1
        · rw [h2] at he; cases he
        · rw [h1] at he; cases he; rfl
      · rw [lost_ne_testing (fun s a l hs => ht ⟨s, a, l, hs⟩)] at he
        exact h.state e he
    | probeFailed =>
      refine ih total last (step i .probeFailed) ?_ hh
      unfold step
      dsimp only
      split
      · exact ⟨h.sum, h.base, by intro e he; cases he; rfl⟩
      · exact h
    | acked f r c =>
      obtain ⟨n, rfl, hsum, h0, hce, h1, hrest⟩ := hh
      refine ih (total + marked (f :: r)) n (step i (.acked f r (some n))) ?_ hrest
      unfold step Info.onAcked
      dsimp only
      have hb := h.base
      have hv : H (total + marked (f :: r)) n (i.validate f r (some n)) := by
        unfold Info.validate
        have keep : H (total + marked (f :: r)) n i := ⟨hsum, ⟨by omega, by omega, hb.2.2⟩, h.state⟩
        split
        · exact keep
        · split
          · exact keep
          · exact keep
          · exact keep
          · rename_i hn _ _ _; cases hn
          · rename_i c' hc _ _ _; cases hc
            have hs := h.sum
            have hcap : (i.judge f r n).state = .capable :=
              (judge_state i f r n).1.mpr ⟨n, rfl, by omega, by omega⟩
            exact ⟨hsum, ⟨Nat.le_refl _, Nat.le_refl _, h1⟩, by intro e he; rw [hcap] at he; cases he⟩
      obtain ⟨h2, h3⟩ := ackedEcn_base (i.validate f r (some n)) (marked (f :: r))
      exact ⟨hv.sum, by rw [h2]; exact hv.base, fun e he => hv.state e (h3 e he)⟩

/-- C81: with an honest peer on a path that keeps the marks, the test fails only because marked
packets are lost, whatever the order and number of acknowledgments and losses. -/
theorem C81_honest (ops : List Op) (h : Honest 0 ⟨0, 0, 0⟩ ops) (e : Verr) (he : (run {} ops).state = .failed e) : e = .blackHole :=
  honest_run ops 0 ⟨0, 0, 0⟩ {} ⟨rfl, ⟨Nat.le_refl _, Nat.le_refl _, rfl⟩, by intro e h; cases h⟩ h e he

/-! ## What goes wrong -/

/-- A path becomes capable although no marked packet was ever acknowledged, which RFC 9000,
appendix A.4, excludes ("unless no marked packet has been acknowledged"; the code cites this): all
ten marked packets are lost, and then an unmarked packet is acknowledged, with counts of zero. -/
theorem C81_capable_without_marked :
    (run {} [.start, .send 10, .acked ⟨11, false⟩ [] (some ⟨0, 0, 0⟩), .lost 10]).state = .capable := by decide

/-- From then on all packets are marked, and the path loses them; but losses are not counted
any more, so that this never ends: however many marked packets are lost, the next one is marked as well. -/
theorem C81_black_hole_stays (i : Info) (h : i.state = .capable) (losses : List Nat) :
    (run i (losses.map .lost)).marking = true := by
  induction losses with
  | nil => simp [run, Info.marking, h]
  | cons n l ih =>
    unfold run
    rw [List.map_cons, List.foldl_cons]
    have : step i (.lost n) = i := lost_ne_testing (by rw [h]; intros; simp) n
    rw [this]; exact ih

/-- Acknowledgments during the test are not looked at: nine marked packets are acknowledged
without any counts, as on a path that removes the marks, and the path still becomes capable. -/
theorem C81_removed_marks_missed :
    (run {} [.start, .send 9, .acked ⟨9, true⟩ ((List.range 8).map fun k => ⟨8 - k, true⟩) none, .send 1,
      .acked ⟨11, false⟩ [] (some ⟨0, 0, 0⟩)]).state = .capable := by decide

/-- An ACK frame that does not increase the largest number acknowledged must not make the test fail
(RFC 9000 §13.4.2.1).  But acknowledgments during the test do not count: after packet 9 was
acknowledged, with all counts, an older ACK frame for packet 4 makes the test fail. -/
theorem C81_reordered_ack_fails :
    (run {} [.start, .send 9, .acked ⟨9, true⟩ [⟨8, true⟩] (some ⟨2, 0, 0⟩), .send 1, .acked ⟨4, true⟩ [] (some ⟨0, 0, 0⟩)]).state =
      .failed .bleaching := by decide

/-! ## Examples -/

/-- An honest peer, with one packet that was marked on the way. -/
def sample : List Op :=
  [.start, .send 1, .acked ⟨1, true⟩ [] (some ⟨1, 0, 0⟩), .send 9, .acked ⟨8, true⟩ [⟨7, true⟩] (some ⟨2, 0, 1⟩), .lost 3,
    .acked ⟨10, true⟩ [⟨9, true⟩] (some ⟨4, 0, 1⟩)]

example : Honest 0 ⟨0, 0, 0⟩ sample ∧ (run {} sample).state = .capable ∧ markedDatagrams {} sample = 10 := by
  refine ⟨?_, by decide, by decide⟩
  simp only [sample, Honest, marked]
  exact ⟨_, rfl, by decide, by decide, by decide, by decide, _, rfl, by decide, by decide, by decide, by decide, _, rfl,
    by decide, by decide, by decide, by decide, trivial⟩

/-- CE marks are reported. -/
example : ((run {} [.start, .send 10]).onAcked ⟨8, true⟩ [⟨7, true⟩] (some ⟨1, 0, 1⟩)).2 = true := by decide

/-- Too few marks, marks that were never used, no counts. -/
example : (run {} [.start, .send 10, .acked ⟨8, true⟩ [⟨7, true⟩] (some ⟨1, 0, 0⟩)]).state = .failed .bleaching ∧
    (run {} [.start, .send 10, .acked ⟨8, true⟩ [⟨7, true⟩] (some ⟨2, 1, 0⟩)]).state = .failed .receivedUnsentEct1 ∧
    (run {} [.start, .send 10, .acked ⟨8, true⟩ [⟨7, true⟩] none]).state = .failed .bleaching ∧
    (run {} [.start, .send 4, .lost 3]).state = .failed .blackHole := by decide

end Neqo.Ecn
