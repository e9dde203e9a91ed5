import Verif.Packet.Model

/-!
# SCONE: the bitrate that the network advises, `neqo-transport/src/scone.rs`

A rate is its code of seven bits; 127 says that nothing is advised.  The conversion of a code to
bits per second is arithmetic in floating point and not modelled.  Times are in nanoseconds.
-/
namespace Neqo.Advice

/-! ## The model -/

/-- `Bitrate::UNKNOWN` (scone.rs:58). -/
def unknown : Nat := 127

/-- `Scone::PERIOD` (scone.rs:19). -/
def period : Nat := 67000000000

/-- `Scone` (scone.rs:13-16). -/
structure Scone where
  updated : Nat
  rate : Nat
  deriving Repr, DecidableEq

/-- `Scone::expired` (scone.rs:28-30). -/
def Scone.expired (s : Scone) (now : Nat) : Bool := decide (s.updated + period ≤ now)

/-- `rate.is_some_and(|r| r <= self.rate)` (scone.rs:42). -/
def notAbove (signal : Option Nat) (rate : Nat) : Bool :=
  match signal with
  | some r => decide (r ≤ rate)
  | none => false

/-- `Scone::update` (scone.rs:38-51), with whether the rate changed. -/
def Scone.update (s : Scone) (now : Nat) (signal : Option Nat) : Scone × Bool :=
  if notAbove signal s.rate || s.expired now then
    let rate := signal.getD unknown
    ({ updated := now, rate }, decide (rate ≠ s.rate))
  else (s, false)

/-- The part of `Path::update_scone` before the report (path.rs:690-706). -/
def apply (p : Option Scone) (now : Nat) (signal : Option Nat) : Option Scone × Bool :=
  match p with
  | some s => (some (s.update now signal).1, (s.update now signal).2)
  | none =>
    match signal with
    | some r => if r ≠ unknown then (some { updated := now, rate := r }, true) else (none, false)
    | none => (none, false)

/-- The paths of a connection, which of them is in use, and the rates that were reported, the last one
at the end. -/
structure Conn where
  paths : Nat → Option Scone := fun _ => none
  primary : Nat := 0
  told : List Nat := []

/-- A packet of path `path` that comes after a signal or after none, or a move to another path. -/
inductive Op where
  | packet (path now : Nat) (signal : Option Nat)
  | move (path : Nat)

/-- `Path::update_scone` (path.rs:690-706) and its use (connection/mod.rs:1790-1794); the events of a
connection keep the last report (events.rs:177-180). -/
def Conn.step (c : Conn) : Op → Conn
  | .packet p now signal =>
    let r := apply (c.paths p) now signal
    { c with paths := fun q => if q = p then r.1 else c.paths q,
             told := match r.1 with
               | some s => if r.2 && decide (p = c.primary) then c.told ++ [s.rate] else c.told
               | none => c.told }
  | .move p => { c with primary := p }

def Conn.run (c : Conn) (ops : List Op) : Conn := ops.foldl Conn.step c

/-! ## Specification -/

/-- The rate that is assumed for a path. -/
def Conn.rate (c : Conn) (p : Nat) : Nat :=
  match c.paths p with
  | some s => s.rate
  | none => unknown

/-- What the application knows. -/
def Conn.known (c : Conn) : Nat := c.told.getLast?.getD unknown

/-- No two neighbours are the same. -/
def Changes : Nat → List Nat → Prop
  | _, [] => True
  | a, b :: l => a ≠ b ∧ Changes b l

/-- Signals have seven bits. -/
def Op.valid : Op → Prop
  | .packet _ _ (some r) => r ≤ 127
  | _ => True

def Op.isMove : Op → Prop
  | .move _ => True
  | _ => False

/-! ## Lemmas -/

theorem changes_snoc : ∀ (l : List Nat) (a b : Nat), Changes a l → l.getLast?.getD a ≠ b → Changes a (l ++ [b])
  | [], _, _, _, h => ⟨h, trivial⟩
  | c :: l, a, b, hc, h => by
    refine ⟨hc.1, changes_snoc l c b hc.2 ?_⟩
    cases l with
    | nil => exact h
    | cons d l =>
      rw [List.getLast?_cons_cons] at h
      cases hl : (d :: l).getLast? with
      | none => simp at hl
      | some x => rw [hl] at h; exact h

def rateOf : Option Scone → Nat
  | some s => s.rate
  | none => unknown

theorem rate_eq (c : Conn) (p : Nat) : c.rate p = rateOf (c.paths p) := by
  unfold Conn.rate rateOf; cases c.paths p <;> rfl

/-- What a packet does to the rate of its path. -/
theorem apply_spec (p : Option Scone) (now : Nat) (signal : Option Nat) :
    ((apply p now signal).2 = true ↔ rateOf (apply p now signal).1 ≠ rateOf p) ∧
    (p.isSome → (apply p now signal).1.isSome) ∧
    ((apply p now signal).2 = true → (apply p now signal).1.isSome) := by
  unfold apply
  cases p with
  | some s =>
    dsimp only
    refine ⟨?_, fun _ => rfl, fun _ => rfl⟩
    unfold Scone.update rateOf
    split
    · dsimp only; rw [decide_eq_true_eq]
    · simp
  | none =>
    cases signal with
    | none => simp [rateOf]
    | some r =>
      dsimp only
      by_cases h : r ≠ unknown
      · rw [if_pos h]; simp [rateOf, h]
      · rw [if_neg h]; simp [rateOf]

theorem apply_le (p : Option Scone) (now r : Nat) : rateOf (apply p now (some r)).1 ≤ r := by
  unfold apply
  cases p with
  | some s =>
    dsimp only
    unfold Scone.update rateOf
    dsimp only
    split
    · exact Nat.le_refl _
    · rename_i h
      simp only [notAbove, Bool.or_eq_true, decide_eq_true_eq, not_or] at h
      dsimp only
      omega
  | none =>
    dsimp only
    split
    · exact Nat.le_refl _
    · rename_i h
      have : r = unknown := by simpa using h
      rw [this]; exact Nat.le_refl _

/-- A rate that was taken at `t` holds, as long as all packets come before it expires. -/
def Held (t r : Nat) (p : Option Scone) : Prop :=
  r = unknown ∧ rateOf p ≤ unknown ∨ ∃ s, p = some s ∧ t ≤ s.updated ∧ s.rate ≤ r

theorem apply_held {t r now : Nat} {p : Option Scone} {signal : Option Nat} (h : Held t r p) (h1 : t ≤ now)
    (h2 : now < t + period) (hv : ∀ x, signal = some x → x ≤ 127) : Held t r (apply p now signal).1 := by
  rcases h with ⟨hr, hp⟩ | ⟨s, hs, ht, hr⟩
  · left
    refine ⟨hr, ?_⟩
    cases signal with
    | some x => exact Nat.le_trans (apply_le p now x) (hv x rfl)
    | none =>
      unfold apply
      cases p with
      | none => exact Nat.le_refl _
      | some s =>
        dsimp only
        unfold Scone.update
        split
        · exact Nat.le_refl _
        · exact hp
  · right
    subst hs
    refine ⟨(s.update now signal).1, rfl, ?_⟩
    unfold Scone.update
    have he : s.expired now = false := by
      unfold Scone.expired
      rw [decide_eq_false_iff_not]
      omega
    rw [he, Bool.or_false]
    cases signal with
    | none => exact ⟨ht, hr⟩
    | some x =>
      dsimp only
      split
      · rename_i hx
        simp only [notAbove, decide_eq_true_eq] at hx
        exact ⟨h1, Nat.le_trans hx hr⟩
      · exact ⟨ht, hr⟩

theorem apply_taken {now r : Nat} {p : Option Scone} (h : rateOf (apply p now (some r)).1 = r) :
    Held now r (apply p now (some r)).1 := by
  unfold apply at h ⊢
  cases p with
  | some s =>
    dsimp only at h ⊢
    right
    refine ⟨_, rfl, ?_⟩
    unfold Scone.update rateOf at *
    dsimp only at h ⊢
    split
    · exact ⟨Nat.le_refl _, Nat.le_refl _⟩
    · rename_i hc
      rw [if_neg hc] at h
      simp only [notAbove, Bool.or_eq_true, decide_eq_true_eq, not_or] at hc
      dsimp only at h
      omega
  | none =>
    dsimp only at h ⊢
    by_cases hu : r ≠ unknown
    · rw [if_pos hu]
      exact Or.inr ⟨_, rfl, Nat.le_refl _, Nat.le_refl _⟩
    · rw [if_neg hu]
      exact Or.inl ⟨by simpa using hu, Nat.le_refl _⟩

/-- The path has no rate, or one that a packet of it brought. -/
def From (hist : List Op) (q : Nat) (p : Option Scone) : Prop :=
  ∀ s, p = some s → s.rate = unknown ∨ Op.packet q s.updated (some s.rate) ∈ hist

theorem apply_from {hist : List Op} {q now : Nat} {p : Option Scone} {signal : Option Nat} (h : From hist q p)
    (hm : Op.packet q now signal ∈ hist) : From hist q (apply p now signal).1 := by
  intro s hs
  unfold apply at hs
  cases p with
  | some s0 =>
    dsimp only at hs
    injection hs with hs
    subst hs
    unfold Scone.update
    split
    · cases signal with
      | none => left; rfl
      | some x => right; exact hm
    · exact h _ rfl
  | none =>
    cases signal with
    | none => cases hs
    | some x =>
      dsimp only at hs
      split at hs
      · injection hs with hs
        subst hs
        exact Or.inr hm
      · cases hs

theorem apply_fresh {now : Nat} {p : Option Scone} {signal : Option Nat} {s : Scone}
    (hs : (apply p now signal).1 = some s) : now < s.updated + period := by
  unfold apply at hs
  have hp : 0 < period := by decide
  cases p with
  | some s0 =>
    dsimp only at hs
    injection hs with hs
    subst hs
    unfold Scone.update
    split
    · dsimp only; omega
    · rename_i h
      simp only [Bool.or_eq_true, not_or, Scone.expired, decide_eq_true_eq] at h
      dsimp only
      omega
  | none =>
    cases signal with
    | none => cases hs
    | some x =>
      dsimp only at hs
      split at hs
      · injection hs with hs
        subst hs
        dsimp only
        omega
      · cases hs

theorem run_append (c : Conn) (a b : List Op) : c.run (a ++ b) = (c.run a).run b := List.foldl_append

theorem step_path (c : Conn) (p now : Nat) (signal : Option Nat) :
    (c.step (.packet p now signal)).paths p = (apply (c.paths p) now signal).1 := by
  simp [Conn.step]

/-! ## The theorems -/

/-- A packet can only carry signals of seven bits. -/
theorem C117_seven_bits (first : UInt8) (version : Nat) (h : version < 2 ^ 32) :
    Pkt.sconeRate first version ≤ 127 := by
  unfold Pkt.sconeRate
  have h1 : version >>> 31 < 2 ^ 7 := by rw [Nat.shiftRight_eq_div_pow]; omega
  have h2 : (first &&& 0x3f).toNat <<< 1 < 2 ^ 7 := by
    rw [Nat.shiftLeft_eq, UInt8.toNat_and]
    have : first.toNat &&& (0x3f : UInt8).toNat ≤ (0x3f : UInt8).toNat := Nat.and_le_right
    have h3 : (0x3f : UInt8).toNat = 63 := rfl
    omega
  have := Nat.or_lt_two_pow h1 h2
  omega

theorem told_inv : ∀ (ops : List Op) (c : Conn), (∀ o ∈ ops, ¬ o.isMove) → c.known = c.rate c.primary → Changes unknown c.told →
    (c.run ops).known = (c.run ops).rate c.primary ∧ Changes unknown (c.run ops).told
  | [], _, _, h1, h2 => ⟨h1, h2⟩
  | .move p :: _, _, hm, _, _ => absurd trivial (hm (.move p) (by simp))
  | .packet p now signal :: ops, c, hm, h1, h2 => by
    have hn : ∀ o ∈ ops, ¬ o.isMove := fun o ho => hm o (by simp [ho])
    obtain ⟨s1, s2, s3⟩ := apply_spec (c.paths p) now signal
    refine told_inv ops (c.step (.packet p now signal)) hn ?_ ?_
    · show _ = (c.step (.packet p now signal)).rate c.primary
      by_cases hp : p = c.primary
      · subst hp
        rw [rate_eq, step_path]
        by_cases hc : (apply (c.paths c.primary) now signal).2 = true
        · obtain ⟨s, hs⟩ := Option.isSome_iff_exists.mp (s3 hc)
          unfold Conn.known Conn.step
          simp [hc, hs, rateOf]
        · have he : rateOf (apply (c.paths c.primary) now signal).1 = rateOf (c.paths c.primary) := by
            by_contra hne; exact hc (s1.mpr hne)
          rw [he, ← rate_eq, ← h1]
          have hf : (apply (c.paths c.primary) now signal).2 = false := by simpa using hc
          unfold Conn.known Conn.step
          simp only [hf, Bool.false_and]
          cases (apply (c.paths c.primary) now signal).1 <;> rfl
      · have e1 : (c.step (.packet p now signal)).told = c.told := by
          unfold Conn.step
          simp only [hp, decide_false, Bool.and_false]
          cases (apply (c.paths p) now signal).1 <;> rfl
        have e2 : (c.step (.packet p now signal)).rate c.primary = c.rate c.primary := by
          have : c.primary ≠ p := fun h => hp h.symm
          simp [rate_eq, Conn.step, this]
        rw [e2, ← h1]
        unfold Conn.known
        rw [e1]
    · show Changes unknown (match (apply (c.paths p) now signal).1 with
        | some s => if (apply (c.paths p) now signal).2 && decide (p = c.primary) then c.told ++ [s.rate] else c.told
        | none => c.told)
      cases hs : (apply (c.paths p) now signal).1 with
      | none => exact h2
      | some s =>
        dsimp only
        split
        · rename_i hc
          simp only [Bool.and_eq_true, decide_eq_true_eq] at hc
          obtain ⟨hc, hp⟩ := hc
          refine changes_snoc _ _ _ h2 ?_
          have := s1.mp hc
          rw [hs, hp, ← rate_eq, ← h1] at this
          exact fun h => this h.symm
        · exact h2

/-- As long as a connection stays on its path, the application always knows the rate of that path
and is told only about changes, whatever comes on any path at any time. -/
theorem C117_told_partial (ops : List Op) (h : ∀ o ∈ ops, ¬ o.isMove) :
    (({} : Conn).run ops).known = (({} : Conn).run ops).rate 0 ∧ Changes unknown (({} : Conn).run ops).told :=
  told_inv ops {} h rfl trivial

/-- It is not told when the connection moves to another path: here it goes on with 10 although 5 is
advised for the path in use, for as long as packets with that advice come. -/
theorem C117_move_not_told (times : List Nat) (h : ∀ t ∈ times, t < period) :
    let c := ({} : Conn).run ([.packet 0 0 (some 10), .packet 1 0 (some 5), .move 1] ++
      times.map fun t => .packet 1 t (some 5))
    c.known = 10 ∧ c.rate c.primary = 5 := by
  have key : ∀ (times : List Nat) (u : Nat), (∀ t ∈ times, t < period) → ∀ c : Conn, c.known = 10 → c.primary = 1 →
      (∃ u, c.paths 1 = some ⟨u, 5⟩) → (c.run (times.map fun t => Op.packet 1 t (some 5))).known = 10 ∧
      (c.run (times.map fun t => Op.packet 1 t (some 5))).rate
        (c.run (times.map fun t => Op.packet 1 t (some 5))).primary = 5 := by
    intro times
    induction times with
    | nil =>
      intro _ _ c h1 h2 ⟨u, h3⟩
      refine ⟨h1, ?_⟩
      show c.rate c.primary = 5
      rw [h2]; simp [Conn.rate, h3]
    | cons t ts ih =>
      intro u ht c h1 h2 ⟨u', h3⟩
      refine ih 0 (fun x hx => ht x (by simp [hx])) (c.step (.packet 1 t (some 5))) ?_ h2 ⟨t, ?_⟩
      · unfold Conn.known Conn.step
        simp only [h3, apply, Scone.update, notAbove]
        simpa [Conn.known] using h1
      · simp [step_path, h3, apply, Scone.update, notAbove]
  dsimp only
  rw [run_append]
  exact key times 0 h _ rfl rfl ⟨0, rfl⟩

/-- A signal is followed at once. -/
theorem C117_followed (ops : List Op) (p now r : Nat) :
    (({} : Conn).run (ops ++ [.packet p now (some r)])).rate p ≤ r := by
  rw [run_append, rate_eq]
  have e : ∀ c : Conn, (c.run [.packet p now (some r)]).paths p = (apply (c.paths p) now (some r)).1 :=
    fun c => step_path c p now (some r)
  rw [e]
  exact apply_le _ _ _

/-- 67 seconds in nanoseconds. -/
def seconds67 : Nat := 67 * 10 ^ 9

theorem period_is : period = seconds67 := by decide

/-- If it is the lowest, it is followed for 67 seconds, whatever comes in between. -/
theorem C117_lowest_partial (ops later : List Op) (p now r : Nat) (hv : ∀ o ∈ later, o.valid)
    (hlow : (({} : Conn).run (ops ++ [.packet p now (some r)])).rate p = r)
    (htime : ∀ t s, Op.packet p t s ∈ later → now ≤ t ∧ t < now + seconds67) :
    (({} : Conn).run (ops ++ [.packet p now (some r)] ++ later)).rate p ≤ r := by
  rw [← period_is] at htime
  have key : ∀ (later : List Op) (c : Conn), (∀ o ∈ later, o.valid) →
      (∀ t s, Op.packet p t s ∈ later → now ≤ t ∧ t < now + period) → Held now r (c.paths p) →
      Held now r ((c.run later).paths p) := by
    intro later
    induction later with
    | nil => intro c _ _ h; exact h
    | cons o os ih =>
      intro c hv ht h
      refine ih (c.step o) (fun x hx => hv x (by simp [hx])) (fun t s hx => ht t s (by simp [hx])) ?_
      cases o with
      | move q => exact h
      | packet q t s =>
        by_cases hq : q = p
        · subst hq
          rw [step_path]
          obtain ⟨t1, t2⟩ := ht t s (by simp)
          refine apply_held h t1 t2 ?_
          intro x hx
          have := hv (.packet q t s) (by simp)
          rw [hx] at this
          exact this
        · have : ((c.step (.packet q t s)).paths p) = c.paths p := by
            have hq' : p ≠ q := fun h => hq h.symm
            simp [Conn.step, hq']
          rw [this]; exact h
  rw [run_append]
  have h0 : Held now r ((({} : Conn).run (ops ++ [.packet p now (some r)])).paths p) := by
    rw [run_append] at hlow ⊢
    rw [rate_eq] at hlow
    have e : ∀ c : Conn, (c.run [.packet p now (some r)]).paths p = (apply (c.paths p) now (some r)).1 :=
      fun c => step_path c p now (some r)
    rw [e] at hlow ⊢
    exact apply_taken hlow
  rcases key later _ hv htime h0 with ⟨a, b⟩ | ⟨s, a, _, b⟩
  · rw [rate_eq]; exact Nat.le_trans b (Nat.le_of_eq a.symm)
  · rw [rate_eq, a]; exact b

/-- Otherwise it is forgotten with the lower one: a rate of 20 that is advised after 66 seconds is not
followed one second later. -/
theorem C117_forgotten_early :
    (({} : Conn).run [.packet 0 0 (some 10), .packet 0 66000000000 (some 20), .packet 0 67000000000 none]).rate 0 = 127 := by
  decide

/-- After each packet, a rate is in use only if a packet of the same path brought it less than 67
seconds ago. -/
theorem C117_expires (ops : List Op) (p now : Nat) (signal : Option Nat) :
    let c := ({} : Conn).run (ops ++ [.packet p now signal])
    c.rate p = unknown ∨
      ∃ t, Op.packet p t (some (c.rate p)) ∈ ops ++ [.packet p now signal] ∧ now < t + seconds67 := by
  rw [← period_is]
  have key : ∀ (hist ops : List Op) (c : Conn), (∀ o ∈ ops, o ∈ hist) → (∀ q, From hist q (c.paths q)) →
      ∀ q, From hist q ((c.run ops).paths q) := by
    intro hist ops
    induction ops with
    | nil => intro c _ h; exact h
    | cons o os ih =>
      intro c hh h
      refine ih (c.step o) (fun x hx => hh x (by simp [hx])) ?_
      intro q
      cases o with
      | move x => exact h q
      | packet x t s =>
        by_cases hq : x = q
        · subst hq
          rw [step_path]
          exact apply_from (h x) (hh _ (by simp))
        · have : ((c.step (.packet x t s)).paths q) = c.paths q := by
            have hq' : q ≠ x := fun h => hq h.symm
            simp [Conn.step, hq']
          rw [this]; exact h q
  intro c
  have hf := key (ops ++ [.packet p now signal]) (ops ++ [.packet p now signal]) {} (fun _ h => h)
    (fun q s hs => by cases hs) p
  have hc : c.paths p = (apply ((({} : Conn).run ops).paths p) now signal).1 := by
    show (({} : Conn).run (ops ++ [.packet p now signal])).paths p = _
    rw [run_append]
    exact step_path _ p now signal
  cases hs : c.paths p with
  | none => left; rw [rate_eq, hs]; rfl
  | some s =>
    have hr : c.rate p = s.rate := by rw [rate_eq, hs]; rfl
    rw [hr]
    rcases hf s hs with h | h
    · exact Or.inl h
    · exact Or.inr ⟨s.updated, h, apply_fresh (hc ▸ hs)⟩

/-! ## Examples -/

/-- Three signals on one path, one on another, and the lowest expires. -/
def exOps : List Op :=
  [.packet 0 0 (some 40), .packet 0 1000 (some 30), .packet 1 2000 (some 5), .packet 0 3000 (some 35), .packet 0 4000 none]

example : (∀ o ∈ exOps, o.valid) ∧ (∀ o ∈ exOps, ¬ o.isMove) ∧ (({} : Conn).run exOps).told = [40, 30] ∧
    (({} : Conn).run exOps).rate 0 = 30 ∧ (({} : Conn).run exOps).rate 1 = 5 ∧
    (({} : Conn).run (exOps ++ [.packet 0 67000001000 (some 50)])).told = [40, 30, 50] := by
  refine ⟨?_, ?_, by decide, by decide, by decide, by decide⟩
  · intro o ho
    simp only [exOps, List.mem_cons, List.not_mem_nil, or_false] at ho
    rcases ho with h | h | h | h | h <;> subst h <;> simp [Op.valid]
  · intro o ho
    simp only [exOps, List.mem_cons, List.not_mem_nil, or_false] at ho
    rcases ho with h | h | h | h | h <;> subst h <;> exact id

example : (({} : Conn).run ([.packet 0 0 (some 40)] ++ [.packet 0 1000 (some 30)])).rate 0 = 30 := by decide

example : Pkt.sconeRate 0xff 0xef7dc0fd = 127 ∧ Pkt.sconeRate 0xc5 0x6f7dc0fd = 10 := by decide

end Neqo.Advice
